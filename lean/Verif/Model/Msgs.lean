import Verif.Model.Crypto
/-
Model of rosenpass/src/msgs.rs: packed wire structs and their byte encoding.
Field offsets are the ones `#[repr(packed)]` gives: fields in order, no gaps.
-/
namespace Verif

/-- msgs.rs:403-417 `enum MsgType`. -/
inductive MsgType where
  | initHello | respHello | initConf | emptyData | cookieReply
  deriving DecidableEq, Repr, Inhabited

namespace MsgType
/-- msgs.rs:406-417, 423-427. -/
def toU8 : MsgType → UInt8
  | .initHello => 0x81
  | .respHello => 0x82
  | .initConf => 0x83
  | .emptyData => 0x84
  | .cookieReply => 0x86

/-- `TryFromPrimitive` of msgs.rs:404-405. -/
def ofU8 (b : UInt8) : Option MsgType :=
  if b = 0x81 then some .initHello
  else if b = 0x82 then some .respHello
  else if b = 0x83 then some .initConf
  else if b = 0x84 then some .emptyData
  else if b = 0x86 then some .cookieReply
  else none
end MsgType

/-- msgs.rs:314-323 + 35: 24 (nonce) + 32+12+32 + 16. -/
def biscuitCtLen : Nat := 116

/-- msgs.rs:131-142 `InitHello`. -/
structure InitHello where
  sidi : Bytes
  epki : Bytes
  sctr : Bytes
  pidiCt : Bytes
  auth : Bytes
  deriving DecidableEq, Repr, Inhabited

namespace InitHello
/-- `size_of::<InitHello>()` -/
def size (C : Crypto) : Nat := 4 + C.epkLen + C.sctLen + 48 + 16
/-- field lengths, msgs.rs:133-141 -/
def WF (C : Crypto) (m : InitHello) : Prop :=
  m.sidi.length = 4 ∧ m.epki.length = C.epkLen ∧ m.sctr.length = C.sctLen ∧
  m.pidiCt.length = 48 ∧ m.auth.length = 16
/-- `as_bytes` -/
def encode (m : InitHello) : Bytes := m.sidi ++ (m.epki ++ (m.sctr ++ (m.pidiCt ++ m.auth)))
/-- `Ref::from_bytes` on exactly `size` bytes -/
def decode (C : Crypto) (b : Bytes) : InitHello where
  sidi := b.take 4
  epki := (b.drop 4).take C.epkLen
  sctr := ((b.drop 4).drop C.epkLen).take C.sctLen
  pidiCt := (((b.drop 4).drop C.epkLen).drop C.sctLen).take 48
  auth := (((b.drop 4).drop C.epkLen).drop C.sctLen).drop 48
end InitHello

/-- msgs.rs:180-193 `RespHello`. -/
structure RespHello where
  sidr : Bytes
  sidi : Bytes
  ecti : Bytes
  scti : Bytes
  auth : Bytes
  biscuitCt : Bytes
  deriving DecidableEq, Repr, Inhabited

namespace RespHello
/-- `size_of::<RespHello>()` -/
def size (C : Crypto) : Nat := 4 + 4 + C.ectLen + C.sctLen + 16 + biscuitCtLen
/-- field lengths, msgs.rs:182-192 -/
def WF (C : Crypto) (m : RespHello) : Prop :=
  m.sidr.length = 4 ∧ m.sidi.length = 4 ∧ m.ecti.length = C.ectLen ∧
  m.scti.length = C.sctLen ∧ m.auth.length = 16 ∧ m.biscuitCt.length = biscuitCtLen
/-- `as_bytes` -/
def encode (m : RespHello) : Bytes :=
  m.sidr ++ (m.sidi ++ (m.ecti ++ (m.scti ++ (m.auth ++ m.biscuitCt))))
/-- `Ref::from_bytes` on exactly `size` bytes -/
def decode (C : Crypto) (b : Bytes) : RespHello where
  sidr := b.take 4
  sidi := (b.drop 4).take 4
  ecti := ((b.drop 4).drop 4).take C.ectLen
  scti := (((b.drop 4).drop 4).drop C.ectLen).take C.sctLen
  auth := ((((b.drop 4).drop 4).drop C.ectLen).drop C.sctLen).take 16
  biscuitCt := ((((b.drop 4).drop 4).drop C.ectLen).drop C.sctLen).drop 16
end RespHello

/-- msgs.rs:231-240 `InitConf`. -/
structure InitConf where
  sidi : Bytes
  sidr : Bytes
  biscuitCt : Bytes
  auth : Bytes
  deriving DecidableEq, Repr, Inhabited

namespace InitConf
/-- `size_of::<InitConf>()` -/
def size : Nat := 4 + 4 + biscuitCtLen + 16
/-- field lengths, msgs.rs:233-239 -/
def WF (m : InitConf) : Prop :=
  m.sidi.length = 4 ∧ m.sidr.length = 4 ∧ m.biscuitCt.length = biscuitCtLen ∧ m.auth.length = 16
/-- `as_bytes` -/
def encode (m : InitConf) : Bytes := m.sidi ++ (m.sidr ++ (m.biscuitCt ++ m.auth))
/-- `Ref::from_bytes` on exactly `size` bytes -/
def decode (b : Bytes) : InitConf where
  sidi := b.take 4
  sidr := (b.drop 4).take 4
  biscuitCt := ((b.drop 4).drop 4).take biscuitCtLen
  auth := ((b.drop 4).drop 4).drop biscuitCtLen
end InitConf

/-- msgs.rs:289-296 `EmptyData`. -/
structure EmptyData where
  sid : Bytes
  ctr : Bytes
  auth : Bytes
  deriving DecidableEq, Repr, Inhabited

namespace EmptyData
/-- `size_of::<EmptyData>()` -/
def size : Nat := 4 + 8 + 16
/-- field lengths, msgs.rs:291-295 -/
def WF (m : EmptyData) : Prop := m.sid.length = 4 ∧ m.ctr.length = 8 ∧ m.auth.length = 16
/-- `as_bytes` -/
def encode (m : EmptyData) : Bytes := m.sid ++ (m.ctr ++ m.auth)
/-- `Ref::from_bytes` on exactly `size` bytes -/
def decode (b : Bytes) : EmptyData where
  sid := b.take 4
  ctr := (b.drop 4).take 8
  auth := (b.drop 4).drop 8
end EmptyData

/-- msgs.rs:316-323 `Biscuit`. -/
structure Biscuit where
  pidi : Bytes
  biscuitNo : Bytes
  ck : Bytes
  deriving DecidableEq, Repr, Inhabited

namespace Biscuit
/-- msgs.rs:32 `BISCUIT_PT_LEN` -/
def size : Nat := 32 + 12 + 32
/-- field lengths -/
def WF (m : Biscuit) : Prop := m.pidi.length = 32 ∧ m.biscuitNo.length = 12 ∧ m.ck.length = 32
/-- `as_bytes` -/
def encode (m : Biscuit) : Bytes := m.pidi ++ (m.biscuitNo ++ m.ck)
/-- `Ref::from_bytes` on exactly `size` bytes -/
def decode (b : Bytes) : Biscuit where
  pidi := b.take 32
  biscuitNo := (b.drop 32).take 12
  ck := (b.drop 32).drop 12
end Biscuit

/-- msgs.rs:81-93 `Envelope<M>`; the payload is kept as its bytes. -/
structure Env where
  msgType : UInt8
  reserved : Bytes
  payload : Bytes
  mac : Bytes
  cookie : Bytes
  deriving DecidableEq, Repr, Inhabited

namespace Env
/-- `size_of::<Envelope<M>>()` for a payload of `n` bytes (msgs.rs:26 `WIRE_ENVELOPE_LEN`). -/
def size (n : Nat) : Nat := 1 + 3 + n + 16 + 16
/-- field lengths, msgs.rs:83-92 -/
def WF (n : Nat) (e : Env) : Prop :=
  e.reserved.length = 3 ∧ e.payload.length = n ∧ e.mac.length = 16 ∧ e.cookie.length = 16
/-- bytes `span_of!(Envelope<M>, msg_type..mac)` -/
def toMac (e : Env) : Bytes := e.msgType :: (e.reserved ++ e.payload)
/-- bytes `span_of!(Envelope<M>, msg_type..cookie)` -/
def toCookie (e : Env) : Bytes := e.toMac ++ e.mac
/-- `as_bytes` -/
def encode (e : Env) : Bytes := e.toCookie ++ e.cookie
/-- view of a buffer of exactly `size n` bytes as an envelope -/
def view (n : Nat) (b : Bytes) : Env where
  msgType := b.headD 0
  reserved := (b.drop 1).take 3
  payload := (b.drop 4).take n
  mac := (b.drop (4 + n)).take 16
  cookie := (b.drop (4 + n + 16)).take 16
/-- `Ref::<_, Envelope<M>>::from_bytes`: exact size or `BufferSizeMismatch`. -/
def decode (n : Nat) (b : Bytes) : Option Env :=
  if b.length = size n then some (view n b) else none
end Env

/-- msgs.rs:341-350 `CookieReplyInner` and 368-371 `CookieReply` with its padding. -/
structure CookieReply where
  msgType : UInt8
  reserved : Bytes
  sid : Bytes
  cookieEncrypted : Bytes
  padding : Bytes
  deriving DecidableEq, Repr, Inhabited

namespace CookieReply
/-- msgs.rs:341-350: 1 + 3 + 4 + (24 + 16 + 16) -/
def innerSize : Nat := 1 + 3 + 4 + 56
/-- msgs.rs:370 padding up to the size of `Envelope<InitHello>` -/
def padLen (C : Crypto) : Nat := Env.size (InitHello.size C) - innerSize
/-- `size_of::<CookieReply>()` -/
def size (C : Crypto) : Nat := innerSize + padLen C
/-- field lengths -/
def WF (C : Crypto) (m : CookieReply) : Prop :=
  m.reserved.length = 3 ∧ m.sid.length = 4 ∧ m.cookieEncrypted.length = 56 ∧
  m.padding.length = padLen C
/-- `as_bytes` -/
def encode (m : CookieReply) : Bytes :=
  m.msgType :: (m.reserved ++ (m.sid ++ (m.cookieEncrypted ++ m.padding)))
/-- `Ref::from_bytes`: exact size or `BufferSizeMismatch`. -/
def decode (C : Crypto) (b : Bytes) : Option CookieReply :=
  if b.length = size C then
    some { msgType := b.headD 0, reserved := (b.drop 1).take 3,
           sid := (b.drop 4).take 4, cookieEncrypted := (b.drop 8).take 56,
           padding := b.drop 64 }
  else none
end CookieReply

end Verif
