import Verif.Model.ApiMsgs
import Verif.Model.App
import Verif.Model.FdPass
/-
Model of the API server: rosenpass/src/api/boilerplate/server.rs (dispatch), api_handler.rs (the requests),
mio/connection.rs (one connection) and mio/manager.rs (all connections).

Buffers of a connection are 16-byte aligned (they are page aligned, secret-memory/src/alloc). A connection's
buffers are always present: they are only missing while a request is handled (connection.rs:302-310).
-/
namespace Verif.Api
open FileIO (Out)
open LengthPrefix (IoKind IoOut Enc Dec)
open FdPass (Chan RdOut)

/-- cipher-traits/src/algorithms.rs:114, 117: lengths of static secret and public keys. -/
def sskLen : Nat := 13608
def spkLen : Nat := 524160

/-- Why an API function did not return `Ok`: an error, a panic, or it did not return (a read from a file
descriptor given by the client blocks). -/
inductive Fail where
  | error | panic | blocked
  deriving DecidableEq, Repr

/-- What the environment decides while a request is handled: what can be read from a file descriptor and how the two
reads proceed, random values, whether a descriptor is a UDP socket or a unix stream socket that can be made
non-blocking, whether mio registers a socket, unregisters a broker, registers a broker. -/
structure ReqWorld where
  content : Nat → Bytes
  reads0 : List Out
  reads1 : List Out
  rnd : NewRnd
  udp : Nat → Bool
  stream : Nat → Bool
  regSock : Bool
  unregBroker : Bool
  regBroker : Bool

/-- payload.rs:155-168, 256-263, 351-358: response status. -/
def statusOk : Nat := 0
def statusAlready : Nat := 1
def statusSupplyInvalid : Nat := 3
def statusInvalid : Nat := 1
def statusInternal : Nat := 2

/-- api_handler.rs:145-201, the two key files: secret key first. `none`: a file descriptor is missing. -/
def readKeys (fds : List Nat) (w : ReqWorld) : Except (Option Fail) (Bytes × Bytes) :=
  match fds with
  | f0 :: f1 :: _ =>
    match FileIO.readExactToEnd sskLen (w.content f0) w.reads0 with
    | none => .error (some .blocked)
    | some (.error _) => .error none
    | some (.ok sk) =>
      match FileIO.readExactToEnd spkLen (w.content f1) w.reads1 with
      | none => .error (some .blocked)
      | some (.error _) => .error none
      | some (.ok pk) => .ok (sk, pk)
  | _ => .error none

/-- api_handler.rs:139-231 `supply_keypair`: the status, or no result. The descriptors stay queued. -/
def supplyKeypair (C : Crypto) (a : App) (fds : List Nat) (w : ReqWorld) : Except Fail Nat × App :=
  match readKeys fds w with
  | .error (some f) => (.error f, a)
  | .error none => (.ok statusSupplyInvalid, a)
  | .ok kp =>
    match a.supply C kp w.rnd with
    | (.ok, a) => (.ok statusOk, a)
    | (.already, a) => (.ok statusAlready, a)
    | (.internal, a) => (.error .error, a)

/-- app_server.rs:977-986 `register_listen_socket`. -/
def registerSocket (a : App) (ok : Bool) : Bool × App :=
  let a := { a with brokers := { a.brokers with next := a.brokers.next + 1 } }
  if ok then (true, { a with nsock := a.nsock + 1 }) else (false, a)

/-- api_handler.rs:233-272 `add_listen_socket`: status, application, remaining descriptors. -/
def addListenSocket (a : App) (fds : List Nat) (w : ReqWorld) : Nat × App × List Nat :=
  match fds with
  | [] => (statusInvalid, a, [])
  | fd :: fds =>
    if w.udp fd then
      let x := registerSocket a w.regSock
      (if x.1 then statusOk else statusInternal, x.2, fds)
    else (statusInvalid, a, fds)

/-- api_handler.rs:326-330: `unregister_broker(erase_ptr)?; register_broker(client)`. `none`: panic. -/
def replaceBroker (a : App) (fd : Nat) (ptr : Nat) (w : ReqWorld) : Option Bool × App :=
  match a.brokers.unregister ptr w.unregBroker with
  | (.error .panic, b) => (none, { a with brokers := b })
  | (.error _, b) => (some false, { a with brokers := b })
  | (.ok (), b) =>
    match b.register fd w.regBroker with
    | (.error .panic, b) => (none, { a with brokers := b })
    | (.error _, b) => (some false, { a with brokers := b })
    | (.ok _, b) => (some true, { a with brokers := b })

/-- api_handler.rs:274-340 `add_psk_broker`. `store.len() - 1` overflows when there is no broker: in a build with
overflow checks this panics; otherwise the result is 2^64 - 1 (`checks`: the former). The broker connected to
descriptor `fd` is named `fd`. -/
def addPskBroker (checks : Bool) (a : App) (fds : List Nat) (w : ReqWorld) : Except Fail Nat × App × List Nat :=
  match fds with
  | [] => (.ok statusInvalid, a, [])
  | fd :: fds =>
    if w.stream fd then
      if a.brokers.store.length = 0 ∧ checks then (.error .panic, a, fds)
      else
        let ptr := if a.brokers.store.length = 0 then 2 ^ 64 - 1 else a.brokers.store.length - 1
        match replaceBroker a fd ptr w with
        | (none, a) => (.error .panic, a, fds)
        | (some ok, a) => (.ok (if ok then statusOk else statusInternal), a, fds)
    else (.ok statusInvalid, a, fds)

/-- The outcome of a request: length of the response, application, descriptors still queued, response buffer. -/
structure ReqRes where
  res : Except Fail Nat
  app : App
  fds : List Nat
  buf : Bytes

/-- puts a response into the start of the response buffer -/
def intoBuf (buf m : Bytes) : Bytes := m ++ buf.drop m.length

/-- a response with a status -/
def withStatus (m : Bytes) (status : Nat) : Bytes := setPayload m (toLE 16 status)

/-- server.rs:149-168 `dispatch` and the handlers; `m` is the response, of which `init` was called. -/
def dispatch (C : Crypto) (checks : Bool) (a : App) (req : Msg) (fds : List Nat) (m : Bytes) (w : ReqWorld) :
    Except Fail Bytes × App × List Nat :=
  match req.kind with
  | .ping => (.ok (setPayload m (payload req.bytes)), a, fds)
  | .supplyKeypair =>
    match supplyKeypair C a fds w with
    | (.error f, a) => (.error f, a, fds)
    | (.ok st, a) => (.ok (withStatus m st), a, fds)
  | .addListenSocket =>
    let x := addListenSocket a fds w
    (.ok (withStatus m x.1), x.2.1, x.2.2)
  | .addPskBroker =>
    match addPskBroker checks a fds w with
    | (.error f, a, fds) => (.error f, a, fds)
    | (.ok st, a, fds) => (.ok (withStatus m st), a, fds)

/-- server.rs:178-216 `handle_message`. -/
def handleMessage (C : Crypto) (checks : Bool) (a : App) (req : Bytes) (fds : List Nat) (buf : Bytes) (w : ReqWorld) :
    ReqRes :=
  match parseFromPrefix .request 0 req with
  | none => ⟨.error .error, a, fds, buf⟩
  | some q =>
    match slot .response q.kind buf with
    | none => ⟨.error .error, a, fds, buf⟩
    | some m0 =>
      let m := init .response q.kind m0
      match dispatch C checks a q fds m w with
      | (.error f, a, fds) => ⟨.error f, a, fds, intoBuf buf m⟩
      | (.ok m, a, fds) => ⟨.ok m.length, a, fds, intoBuf buf m⟩

/-! ### Connections -/

/-- connection.rs:44-65 `MioConnection`. -/
structure Conn where
  token : Nat
  invalid : Bool
  dec : Dec
  enc : Enc
  fds : List Nat

/-- What the environment decides during one `poll` of a connection: how the calls of `write` and `read` go (after the
given ones, all calls would block), and what a request meets. -/
structure PollWorld where
  flush0 : List IoOut
  reads : List RdOut
  req : ReqWorld
  flush1 : List IoOut

/-- the three outcomes of the stages of `poll`: `Ok(Some(()))`, `Ok(None)`, or failure -/
inductive Stage where
  | go | wait | fail (f : Fail)
  deriving DecidableEq, Repr

namespace Conn

/-- connection.rs:77-93 `new` (without the registration). -/
def new (token : Nat) : Except Fail Conn :=
  match Enc.fromBuffer (List.replicate 4096 0) with
  | .error _ => .error .panic
  | .ok e => .ok { token := token, invalid := false, dec := Dec.new (List.replicate 4096 0), enc := e, fds := [] }

/-- connection.rs:98-105 `should_close`; `none`: panic. -/
def shouldClose (c : Conn) : Option Bool := c.enc.exhausted.map (fun x => c.invalid && x)

/-- connection.rs:184-211: the loop of `flush_write_buffer`; also the bytes sent. -/
def flushLoop (c : Conn) : List IoOut → Stage × Conn × Bytes
  | [] => (.wait, c, [])
  | o :: os =>
    match c.enc.write o with
    | (.ok (_, true), e, b) =>
      match e.zeroize with
      | .error _ => (.fail .panic, { c with enc := e }, b)
      | .ok e => (.go, { c with enc := e }, b)
    | (.ok (0, false), e, b) => (.wait, { c with enc := e }, b)
    | (.ok (_ + 1, false), e, b) => let x := { c with enc := e }.flushLoop os; (x.1, x.2.1, b ++ x.2.2)
    | (.error (.io .wouldBlock), e, b) => (.wait, { c with enc := e }, b)
    | (.error (.io .interrupted), e, b) => let x := { c with enc := e }.flushLoop os; (x.1, x.2.1, b ++ x.2.2)
    | (.error (.io _), e, b) => (.fail .error, { c with enc := e }, b)
    | (.error _, e, b) => (.fail .panic, { c with enc := e }, b)

/-- connection.rs:176-212 `flush_write_buffer`. -/
def flush (c : Conn) (os : List IoOut) : Stage × Conn × Bytes :=
  match c.enc.exhausted with
  | none => (.fail .panic, c, [])
  | some true => (.go, c, [])
  | some false => c.flushLoop os

/-- connection.rs:236-238: one `read_from_stdio` of the decoder from a `ReadWithFileDescriptors<2>`: the decoder's
result, the connection and the rest of the socket. -/
def readOnce (c : Conn) (chan : Chan) (o : RdOut) : Except LengthPrefix.DecErr (Nat × Option Bytes) × Conn × Chan :=
  match c.dec.nextSlice with
  | .ok (some (g, len)) =>
    let rd := FdPass.read 2 c.fds chan len o
    match rd.res with
    | .ok b =>
      let x := c.dec.read b (.ok b.length)
      (x.1, { c with dec := x.2.1, fds := rd.held }, rd.chan)
    | .error k => (.error (.io k), { c with dec := c.dec.fill g rd.taken, fds := rd.held }, rd.chan)
  | _ =>
    let x := c.dec.read [] (.ok 0)
    (x.1, { c with dec := x.2.1 }, chan)

/-- connection.rs:223-277: the loop of `recv`. -/
def recvLoop (c : Conn) (chan : Chan) : List RdOut → Stage × Conn × Chan
  | [] =>
    -- a complete message or an oversized one is noticed without reading
    match c.dec.nextSlice with
    | .ok (some _) => (.wait, c, chan)
    | _ =>
      match c.dec.read [] (.ok 0) with
      | (.ok (_, some _), d, _) => (.go, { c with dec := d }, chan)
      | (.ok (_, none), d, _) => (.wait, { c with dec := d }, chan)
      | (.error (.tooLarge _ _), d, _) => (.wait, { c with dec := d, invalid := true }, chan)
      | (.error _, d, _) => (.fail .panic, { c with dec := d }, chan)
  | o :: os =>
    match c.readOnce chan o with
    | (.ok (_, some _), c, chan) => (.go, c, chan)
    | (.error (.tooLarge _ _), c, chan) => (.wait, { c with invalid := true }, chan)
    | (.ok (0, none), c, chan) => (.wait, c, chan)
    | (.error (.io .wouldBlock), c, chan) => (.wait, c, chan)
    | (.ok (_ + 1, none), c, chan) => c.recvLoop chan os
    | (.error (.io .interrupted), c, chan) => c.recvLoop chan os
    | (.error (.io _), c, chan) => (.fail .error, { c with invalid := true }, chan)
    | (.error _, c, chan) => (.fail .panic, c, chan)

/-- connection.rs:215-278 `recv`. -/
def recv (c : Conn) (chan : Chan) (os : List RdOut) : Stage × Conn × Chan :=
  match c.enc.exhausted with
  | none => (.fail .panic, c, chan)
  | some ex => if !ex || c.invalid then (.wait, c, chan) else c.recvLoop chan os

/-- connection.rs:152-173 `handle_incoming_message`. The buffers are only cleared when the request was answered. -/
def handle (C : Crypto) (checks : Bool) (a : App) (c : Conn) (w : ReqWorld) : Stage × App × Conn :=
  match c.enc.exhausted, c.dec.message with
  | some true, .ok (some req) =>
    let r := handleMessage C checks a req c.fds c.enc.buf w
    let c1 := { c with fds := r.fds, enc := { c.enc with buf := r.buf } }
    match r.res with
    | .error f => (.fail f, r.app, c1)
    | .ok len =>
      match c1.enc.restartWith len with
      | (.error .panic, e) => (.fail .panic, r.app, { c1 with enc := e })
      | (.error _, e) => (.fail .error, r.app, { c1 with enc := e })
      | (.ok (), e) => (.go, r.app, { c1 with enc := e, dec := c1.dec.clear, fds := [] })
  | _, _ => (.fail .panic, a, c)

/-- The outcome of a poll. -/
structure Polled where
  res : Except Fail Unit
  app : App
  conn : Conn
  chan : Chan
  sent : Bytes

/-- what a stage that does not go on means for `poll` -/
def Stage.result : Stage → Except Fail Unit
  | .fail f => .error f
  | _ => .ok ()

/-- connection.rs:131-149 `poll`. -/
def poll (C : Crypto) (checks : Bool) (a : App) (c : Conn) (chan : Chan) (w : PollWorld) : Polled :=
  match c.flush w.flush0 with
  | (.go, c, b) =>
    match c.recv chan w.reads with
    | (.go, c, chan) =>
      match c.handle C checks a w.req with
      | (.go, a, c) =>
        let x := c.flush w.flush1
        ⟨Stage.result x.1, a, x.2.1, chan, b ++ x.2.2⟩
      | (s, a, c) => ⟨Stage.result s, a, c, chan, b⟩
    | (s, c, chan) => ⟨Stage.result s, a, c, chan, b⟩
  | (s, c, b) => ⟨Stage.result s, a, c, chan, b⟩

end Conn

/-- A connection with the bytes in its socket and the bytes sent to the client so far. -/
structure Link where
  conn : Conn
  chan : Chan
  out : Bytes

end Verif.Api
