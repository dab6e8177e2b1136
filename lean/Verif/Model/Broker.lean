import Verif.Model.LengthPrefix
/-
Model of the WireGuard PSK broker: wireguard-broker/src/api/{msgs,config,client,server}.rs,
wireguard-broker/src/brokers/{netlink,mio_client}.rs and the privileged process wireguard-broker/src/bin/priviledged.rs.

The message structures are `repr(packed)`, so a byte slice of the right length can always be viewed as one.
-/
namespace Verif.Broker
open LengthPrefix (IoKind IoOut Enc Dec DecErr EncErr)

/-- msgs.rs:9-14 `ENVELOPE_OVERHEAD`, `REQUEST_MSG_BUFFER_SIZE`, `RESPONSE_MSG_BUFFER_SIZE`. -/
def envelopeOverhead : Nat := 1 + 3
def requestSize : Nat := envelopeOverhead + 32 + 32 + 1 + 255
def responseSize : Nat := envelopeOverhead + 1

/-- `std::str::from_utf8(b).is_ok()`. Lean's own UTF-8 validation; `utf8_iff` says what it accepts. -/
def utf8 (b : Bytes) : Bool := (ByteArray.mk b.toArray).validateUTF8

/-- lib.rs:71-81 `SerializedBrokerConfig` (without `additional_params`, which this protocol drops:
config.rs:50-60), config.rs:13-22 `NetworkBrokerConfig`. -/
structure Cfg where
  iface : Bytes
  peerId : Bytes
  psk : Bytes
  deriving DecidableEq, Repr

/-- lib.rs:42, 45: `Public<32>` and `Secret<32>` are arrays of that size. -/
structure Cfg.WF (c : Cfg) : Prop where
  peerId : c.peerId.length = 32
  psk : c.psk.length = 32

/-- msgs.rs:93-102 `SetPskError`. -/
inductive PskErr where
  | internalError | noSuchInterface | noSuchPeer
  deriving DecidableEq, Repr

/-- msgs.rs:104 `SetPskResult`. -/
abbrev PskRes := Except PskErr Unit

/-- msgs.rs:112-119, 167-180: `SetPskResponseReturnCode::from(SetPskResult) as u8`. -/
def code : PskRes → UInt8
  | .ok () => 0x00
  | .error .internalError => 0x01
  | .error .noSuchInterface => 0x02
  | .error .noSuchPeer => 0x03

/-- msgs.rs:139-149, 152-165: `SetPskResponseReturnCode::try_from(u8)` and `SetPskResult::from`. -/
def ofCode (b : UInt8) : Option PskRes :=
  if b = 0x00 then some (.ok ())
  else if b = 0x01 then some (.error .internalError)
  else if b = 0x02 then some (.error .noSuchInterface)
  else if b = 0x03 then some (.error .noSuchPeer)
  else none

/-- msgs.rs:199-201 `MsgType::SetPsk`; 221-226 `MsgType::try_from(b).is_ok()`. -/
def setPskType : UInt8 := 0x01
def knownType (b : UInt8) : Bool := b = 0x01

/-- msgs.rs:19-26: the payload behind type and reserved bytes. -/
def envelope (payload : Bytes) : Bytes := setPskType :: [0, 0, 0] ++ payload

/-- msgs.rs:66-75 `set_iface_bin`: size byte and zero padded buffer. -/
def ifaceField (iface : Bytes) : Option Bytes :=
  if iface.length < 256 then some (UInt8.ofNat iface.length :: iface ++ List.replicate (255 - iface.length) 0) else none

/-- client.rs:93-107 `BrokerClientSetPskError` without the I/O error. -/
inductive ClientErr where
  | brokerError | ifaceOutOfBounds
  deriving DecidableEq, Repr

/-- client.rs:195-222 the request built by `set_psk`; fields of the payload as in msgs.rs:33-43: key, peer, interface. -/
def buildRequest (c : Cfg) : Except ClientErr Bytes :=
  if utf8 c.iface then
    match ifaceField c.iface with
    | none => .error .ifaceOutOfBounds
    | some f => .ok (envelope (c.psk ++ c.peerId ++ f))
  else .error .brokerError

/-- client.rs:168-186, the message part of `poll_response`. -/
def parseResponse (res : Bytes) : Option PskRes :=
  match res.head? with
  | none => none
  | some t =>
    if knownType t then
      if res.length = responseSize then
        match res[4]? with
        | none => none
        | some b => ofCode b
      else none
    else none

/-- A `WireGuardBroker` whose error was converted to `SetPskError`: result and new state. -/
abbrev Inner (σ : Type) := σ → Cfg → PskRes × σ

/-- msgs.rs:47-58 and server.rs:99-104: the fields of a request. -/
def reqPsk (req : Bytes) : Bytes := (req.drop 4).take 32
def reqPeerId (req : Bytes) : Bytes := (req.drop 36).take 32
def reqIfaceSize (req : Bytes) : UInt8 := (req[68]?).getD 0
def reqIface (req : Bytes) : Bytes := ((req.drop 69).take 255).take (reqIfaceSize req).toNat

/-- server.rs:93-125 `handle_set_psk`; `none`: `InvalidMessage`. -/
def handleSetPsk {σ : Type} (inner : Inner σ) (s : σ) (req : Bytes) : Option UInt8 × σ :=
  if utf8 (reqIface req) then
    let r := inner s ⟨reqIface req, reqPeerId req, reqPsk req⟩
    (some (code r.1), r.2)
  else (none, s)

/-- server.rs:65-85 `handle_message`: the response (`none`: `InvalidMessage`), the state of the inner broker. -/
def handleMessage {σ : Type} (inner : Inner σ) (s : σ) (req : Bytes) : Option Bytes × σ :=
  match req.head? with
  | none => (none, s)
  | some t =>
    if knownType t then
      if req.length = requestSize then
        match handleSetPsk inner s req with
        | (none, s) => (none, s)
        | (some c, s) => (some (envelope [c]), s)
      else (none, s)
    else (none, s)

/-! ### The netlink broker -/

/-- The WireGuard configuration of the kernel: interface name, peer key, preshared key. -/
abbrev Kernel := Bytes → Option (Bytes → Option Bytes)

/-- netlink.rs:54-62 `SetPskError`. -/
inductive NlErr where
  | noSuchInterface | noSuchPeer | netlink
  deriving DecidableEq, Repr

/-- netlink.rs:99-106 `From<SetPskNetlinkError> for SetPskMsgsError`. -/
def NlErr.toMsgs : NlErr → PskErr
  | .noSuchPeer => .noSuchPeer
  | _ => .internalError

/-- What the environment does around one call of the netlink broker: whether the two netlink exchanges fail, and the
kernel configuration when the second one is processed (another process may have changed it). -/
structure NlEnv where
  getFails : Bool
  setFails : Bool
  meanwhile : Kernel → Kernel

/-- `WGPEER_F_UPDATE_ONLY`: sets the key of a peer that exists, otherwise does nothing and reports success. `none`:
there is no such interface. -/
def Kernel.update (k : Kernel) (c : Cfg) : Option Kernel :=
  match k c.iface with
  | none => none
  | some peers =>
    match peers c.peerId with
    | none => some k
    | some _ =>
      some (fun i => if i = c.iface then some (fun p => if p = c.peerId then some c.psk else peers p) else k i)

/-- netlink.rs:152-185 `set_psk`. A failing `set_device` changes nothing. -/
def netlinkSetPsk (k : Kernel) (e : NlEnv) (c : Cfg) : Except NlErr Unit × Kernel :=
  if utf8 c.iface then
    if e.getFails then (.error .netlink, e.meanwhile k)
    else
      match k c.iface with
      | none => (.error .netlink, e.meanwhile k)
      | some peers =>
        if (peers c.peerId).isSome then
          let k := e.meanwhile k
          if e.setFails then (.error .netlink, k)
          else
            match k.update c with
            | none => (.error .netlink, k)
            | some k => (.ok (), k)
        else (.error .noSuchPeer, e.meanwhile k)
  else (.error .noSuchInterface, k)

/-- server.rs:112-119: the netlink broker behind the server. -/
def netlink (env : NlEnv) : Inner Kernel := fun k c =>
  match netlinkSetPsk k env c with
  | (.ok (), k) => (.ok (), k)
  | (.error x, k) => (.error x.toMsgs, k)

/-! ### The privileged process -/

/-- priviledged.rs:64-94, one turn of the loop on the bytes waiting on standard input: `blocked` while the header or
the message is incomplete, `oversized` for a length above the buffer; otherwise the answer (if any), the new state of
the broker and the rest of the input. -/
inductive Turn (σ : Type) where
  | blocked
  | oversized
  | done (out : Bytes) (s : σ) (rest : Bytes)

/-- priviledged.rs:66-93. The response is sent as length and message. -/
def turn {σ : Type} (inner : Inner σ) (s : σ) (inp : Bytes) : Turn σ :=
  if inp.length < 8 then .blocked
  else
    let len := leNat (inp.take 8)
    if requestSize < len then .oversized
    else if inp.length < 8 + len then .blocked
    else
      let x := handleMessage inner s ((inp.drop 8).take len)
      let rest := inp.drop (8 + len)
      match x.1 with
      | none => .done [] x.2 rest
      | some r => .done (toLE 8 r.length ++ r) x.2 rest

/-- The privileged process after it has worked off its input: bytes written, state, input left, whether it has ended. -/
structure Served (σ : Type) where
  out : Bytes
  state : σ
  rest : Bytes
  ended : Bool

/-- priviledged.rs:64-95: as many turns as the input allows; `fuel` bounds them (a turn consumes at least 8 bytes, so
the length of the input is enough: `serve`). -/
def serveN {σ : Type} (inner : Inner σ) : Nat → σ → Bytes → Served σ
  | 0, s, inp => ⟨[], s, inp, false⟩
  | n + 1, s, inp =>
    match turn inner s inp with
    | .blocked => ⟨[], s, inp, false⟩
    | .oversized => ⟨[], s, inp, true⟩
    | .done out s rest =>
      let x := serveN inner n s rest
      ⟨out ++ x.out, x.state, x.rest, x.ended⟩

/-- priviledged.rs:51-95 `main` on everything received so far. -/
def serve {σ : Type} (inner : Inner σ) (s : σ) (inp : Bytes) : Served σ := serveN inner inp.length s inp

/-! ### The client in the daemon -/

/-- mio_client.rs:97-136 `MioBrokerClient`: the decoder and encoder around its socket, with the bytes waiting in the
socket and the bytes the socket has accepted so far. -/
structure Client where
  dec : Dec
  enc : Enc
  inp : Bytes
  out : Bytes

/-- What a call of the client ends with: an error, a panic, or it does not return (busy waiting for the socket). -/
inductive Fail where
  | error | panic | hang
  deriving DecidableEq, Repr

namespace Client

/-- mio_client.rs:143-156 `new`. -/
def new : Except Fail Client :=
  match Enc.fromBuffer (List.replicate 4096 0) with
  | .error _ => .error .panic
  | .ok e => .ok { dec := Dec.new (List.replicate 4096 0), enc := e, inp := [], out := [] }

/-- mio_client.rs:321-335 `flush`: one successful `write` at most. After the given outcomes the socket would block. -/
def flush (c : Client) : List IoOut → Except Fail Unit × Client
  | [] =>
    -- an exhausted encoder does not call `write`
    match c.enc.write (.err .wouldBlock) with
    | (.ok _, e, b) => (.ok (), { c with enc := e, out := c.out ++ b })
    | (.error (.io _), e, b) => (.ok (), { c with enc := e, out := c.out ++ b })
    | (.error _, e, b) => (.error .panic, { c with enc := e, out := c.out ++ b })
  | o :: os =>
    match c.enc.write o with
    | (.ok _, e, b) => (.ok (), { c with enc := e, out := c.out ++ b })
    | (.error (.io .wouldBlock), e, b) => (.ok (), { c with enc := e, out := c.out ++ b })
    | (.error (.io .interrupted), e, b) => { c with enc := e, out := c.out ++ b }.flush os
    | (.error (.io _), e, b) => (.error .error, { c with enc := e, out := c.out ++ b })
    | (.error _, e, b) => (.error .panic, { c with enc := e, out := c.out ++ b })

/-- mio_client.rs:303-313: the loop of `flush_blocking`. The socket stays non-blocking (`O_NONBLOCK` is a file status
flag, `F_SETFD` does not change it), so this is a busy loop; it ends with the outcomes only if the encoder is
exhausted. -/
def flushAll (c : Client) : List IoOut → Except Fail Unit × Client
  | [] =>
    match c.enc.exhausted with
    | none => (.error .panic, c)
    | some true => (.ok (), c)
    | some false => (.error .hang, c)
  | o :: os =>
    match c.enc.exhausted with
    | none => (.error .panic, c)
    | some true => (.ok (), c)
    | some false =>
      match c.enc.write o with
      | (.ok _, e, b) => { c with enc := e, out := c.out ++ b }.flushAll os
      | (.error (.io .wouldBlock), e, b) => { c with enc := e, out := c.out ++ b }.flushAll os
      | (.error (.io .interrupted), e, b) => { c with enc := e, out := c.out ++ b }.flushAll os
      | (.error (.io _), e, b) => (.error .error, { c with enc := e, out := c.out ++ b })
      | (.error _, e, b) => (.error .panic, { c with enc := e, out := c.out ++ b })

/-- mio_client.rs:273-319 `flush_blocking`; `fcntl` on an open descriptor does not fail. -/
def flushBlocking (c : Client) (os0 os1 : List IoOut) : Except Fail Unit × Client :=
  match c.flush os0 with
  | (.error f, c) => (.error f, c)
  | (.ok (), c) =>
    match c.enc.exhausted with
    | none => (.error .panic, c)
    | some true => (.ok (), c)
    | some false => c.flushAll os1

/-- What the socket does during one call: the writes of `flush_blocking`, of its loop, of the last `flush`, and the
reads. -/
structure World where
  flush0 : List IoOut
  flush1 : List IoOut
  flush2 : List IoOut
  reads : List IoOut

/-- mio_client.rs:233-250 `send_msg`. The second component tells whether the message was placed in the write buffer. -/
def sendMsg (c : Client) (buf : Bytes) (w : World) : Except Fail Unit × Bool × Client :=
  match c.flushBlocking w.flush0 w.flush1 with
  | (.error f, c) => (.error f, false, c)
  | (.ok (), c) =>
    if c.enc.exhausted = some true then
      if c.enc.buf.length < buf.length then (.error .panic, false, c)
      else
        let e := { c.enc with buf := buf ++ c.enc.buf.drop buf.length }
        match e.restartWith buf.length with
        | (.error .panic, e) => (.error .panic, false, { c with enc := e })
        | (.error _, e) => (.error .error, false, { c with enc := e })
        | (.ok (), e) =>
          let x := { c with enc := e }.flush w.flush2
          (x.1, true, x.2)
    else (.error .panic, false, c)

/-- mio_client.rs:183-193, client.rs:195-231 `set_psk`. -/
def setPsk (c : Client) (cfg : Cfg) (w : World) : Except Fail Unit × Bool × Client :=
  match buildRequest cfg with
  | .error _ => (.error .error, false, c)
  | .ok m => c.sendMsg m w

/-- mio_client.rs:252-269 `recv_msg`: one successful `read` at most. After the given outcomes the socket would block. -/
def recvMsg (c : Client) : List IoOut → Except Fail (Option Bytes) × Client
  | [] =>
    -- a complete message is returned without reading
    match c.dec.read c.inp (.err .wouldBlock) with
    | (.ok _, d, i) =>
      match d.message with
      | .ok m => (.ok m, { c with dec := d, inp := i })
      | .error .panic => (.error .panic, { c with dec := d, inp := i })
      | .error _ => (.error .error, { c with dec := d, inp := i })
    | (.error (.io _), d, i) => (.ok none, { c with dec := d, inp := i })
    | (.error .panic, d, i) => (.error .panic, { c with dec := d, inp := i })
    | (.error _, d, i) => (.error .error, { c with dec := d, inp := i })
  | o :: os =>
    match c.dec.read c.inp o with
    | (.ok _, d, i) =>
      match d.message with
      | .ok m => (.ok m, { c with dec := d, inp := i })
      | .error .panic => (.error .panic, { c with dec := d, inp := i })
      | .error _ => (.error .error, { c with dec := d, inp := i })
    | (.error (.io .wouldBlock), d, i) => (.ok none, { c with dec := d, inp := i })
    | (.error (.io .interrupted), d, i) => { c with dec := d, inp := i }.recvMsg os
    | (.error .panic, d, i) => (.error .panic, { c with dec := d, inp := i })
    | (.error _, d, i) => (.error .error, { c with dec := d, inp := i })

/-- client.rs:162-189 `poll_response`: the result reported by the broker, if there is one. -/
def pollResponse (c : Client) (os : List IoOut) : Except Fail (Option PskRes) × Client :=
  match c.recvMsg os with
  | (.error f, c) => (.error f, c)
  | (.ok none, c) => (.ok none, c)
  | (.ok (some m), c) =>
    match parseResponse m with
    | none => (.error .error, c)
    | some r => (.ok (some r), c)

/-- mio_client.rs:162-177 `poll`; the reported result is only logged. -/
def poll (c : Client) (w : World) : Except Fail (Option PskRes) × Client :=
  match c.flush w.flush0 with
  | (.error f, c) => (.error f, c)
  | (.ok (), c) => c.pollResponse w.reads

/-- What happens to a client: a call of `set_psk`, a poll, or bytes from the broker arriving in the socket. -/
inductive Op where
  | setPsk (cfg : Cfg) (w : World)
  | poll (w : World)
  | arrive (b : Bytes)

/-- What a caller sees of an operation: the result of `set_psk`, what `poll` found. -/
inductive Seen where
  | set (cfg : Cfg) (res : Except Fail Unit) (queued : Bool)
  | polled (res : Except Fail (Option PskRes))
  | arrived (b : Bytes)

def step (c : Client) : Op → Seen × Client
  | .setPsk cfg w => let x := c.setPsk cfg w; (.set cfg x.1 x.2.1, x.2.2)
  | .poll w => let x := c.poll w; (.polled x.1, x.2)
  | .arrive b => (.arrived b, { c with inp := c.inp ++ b })

def run (c : Client) : List Op → List Seen × Client
  | [] => ([], c)
  | o :: os => let x := c.step o; let y := x.2.run os; (x.1 :: y.1, y.2)

end Client
end Verif.Broker
