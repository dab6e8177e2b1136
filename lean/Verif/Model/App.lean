import Verif.Model.Poll
import Verif.Model.Build
import Verif.Model.Endpoint
import Verif.Model.FileIO
/-
Model of the application server, rosenpass/src/app_server.rs: peers, brokers, the event loop and the
output of keys. The protocol server is the model in Model/Poll.lean. Receiving (sockets, epoll, load
detection) is modelled in Model/Recv.lean; here the environment decides what is received.
-/
namespace Verif
open FileIO (Out Fs)

/-- A WireGuard PSK broker: which one it is, and its mio token if it is registered. -/
structure Broker where
  name : Nat
  token : Option Nat
  deriving DecidableEq, Repr

/-- app_server.rs:145-150 `BrokerStore` with 331-336 `io_source_index` (the entries of brokers) and
the token dispenser (77-112). -/
structure Brokers where
  store : List (Nat × Broker)
  io : List (Nat × Nat)
  next : Nat
  deriving DecidableEq, Repr

/-- Why a broker operation failed. -/
inductive BrokerErr where
  | duplicate | register | notFound | unregister | panic
  deriving DecidableEq, Repr

namespace Brokers

/-- `HashMap::insert`. -/
def put {α : Type} (l : List (Nat × α)) (k : Nat) (v : α) : List (Nat × α) := (k, v) :: l.filter (fun x => x.1 ≠ k)

/-- app_server.rs:1001-1022 `register_broker`: the key of the new broker is the number of brokers.
`ok`: whether registration with mio succeeds. -/
def register (b : Brokers) (name : Nat) (ok : Bool) : Except BrokerErr Nat × Brokers :=
  let ptr := b.store.length
  let b1 := { b with store := put b.store ptr ⟨name, none⟩ }
  if (b.store.lookup ptr).isSome then (.error .duplicate, b1)
  else
    let tok := b.next
    let b2 := { b1 with next := b.next + 1 }
    if !ok then (.error .register, b2)
    else
      let b3 := { b2 with store := put b.store ptr ⟨name, some tok⟩ }
      if (b.io.lookup tok).isSome then (.error .panic, b3)
      else (.ok ptr, { b3 with io := put b.io tok ptr })

/-- app_server.rs:1024-1034 `unregister_broker` (with 995-999). The broker is removed from the store
first. -/
def unregister (b : Brokers) (ptr : Nat) (ok : Bool) : Except BrokerErr Unit × Brokers :=
  match b.store.lookup ptr with
  | none => (.error .notFound, b)
  | some br =>
    let b1 := { b with store := b.store.filter (fun x => x.1 ≠ ptr) }
    match br.token with
    | none => (.error .panic, b1)
    | some tok =>
      if (b.io.lookup tok).isNone then (.error .panic, b1)
      else
        let b2 := { b1 with io := b.io.filter (fun x => x.1 ≠ tok) }
        if ok then (.ok (), b2) else (.error .unregister, b2)

end Brokers

/-- app_server.rs:189-246 `AppPeer`; `broker` is 152-187 `BrokerPeer` (key in the broker store, and
the WireGuard interface and peer it configures). -/
structure AppPeer where
  outfile : Option String
  broker : Option (Nat × String)
  initial : Option Endpoint
  current : Option Endpoint
  deriving DecidableEq

/-- app_server.rs:241-245 `endpoint`. -/
def AppPeer.endpoint (p : AppPeer) : Option Endpoint := p.current <|> p.initial

/-- app_server.rs:311-385 `AppServer`, the part used here, and the file system it writes to. -/
structure App where
  site : Site Builder Server
  nsock : Nat
  peers : List AppPeer
  brokers : Brokers
  fs : Fs

/-- app_server.rs:479-493 `KeyOutputReason`. -/
inductive Reason where
  | exchanged | stale
  deriving DecidableEq, Repr

/-- What the application does to the world apart from writing files. -/
inductive Output where
  | datagram (sock : Nat) (addr : Addr) (msg : Bytes)
  | line (pid : Bytes) (file : String) (why : Reason)
  | psk (broker : Nat) (cfg : String) (key : Bytes)
  deriving DecidableEq

/-- How one round of the event loop ended: with the next round, by leaving the loop with success, with an
error, with a panic, or not at all (killed or blocked while writing a file). -/
inductive Fate where
  | next | exit | error | panic | killed
  deriving DecidableEq, Repr

/-- What `try_recv` returned. -/
inductive IoEvent where
  | none | terminate | err
  | msg (rx : Bytes) (sock : Nat) (addr : Addr)
  deriving DecidableEq

/-- What the environment decides in one round: clocks, random values, the old content of the
transmit buffer, what is received, the load status (see Model/Recv.lean), and which I/O succeeds. -/
structure World where
  now : Time
  prnd : Server.PollRnd
  later : Time
  rnd : HashChoice → Rnd
  rnd0 : Rnd
  tx : Bytes
  io : IoEvent
  load : Bool
  sendTo : Bool
  scout : Nat → Nat → Bool
  stale : Bytes
  umask : Nat
  openOk : Bool
  writes : List Out
  lineOk : Bool
  pskOk : Bool

namespace App

/-- The state, the outputs and the fate after a round or a part of it. -/
structure Res where
  fate : Fate
  app : App
  out : List Output

/-- `?` and sequencing. -/
def Res.andThen (r : Res) (f : App → Res) : Res :=
  match r.fate with
  | .next =>
    let x := f r.app
    ⟨x.fate, x.app, r.out ++ x.out⟩
  | _ => r

/-- an error of the protocol server as the fate of the round -/
def fateOf : Err → Fate
  | .panic => .panic
  | _ => .error

/-- app_server.rs:439-454 `set_psk`; the missing broker is an `unwrap` on `None`. -/
def setPsk (a : App) (p : Nat) (key : Bytes) (e : World) : Res :=
  match a.peers[p]? with
  | none => ⟨.panic, a, []⟩
  | some ap =>
    match ap.broker with
    | none => ⟨.next, a, []⟩
    | some (ptr, cfg) =>
      match a.brokers.store.lookup ptr with
      | none => ⟨.panic, a, []⟩
      | some br => if e.pskOk then ⟨.next, a, [.psk br.name cfg key]⟩ else ⟨.error, a, []⟩

/-- app_server.rs:37 `MAX_B64_KEY_SIZE`. -/
def maxB64KeySize : Nat := 32 * 5 / 3

/-- app_server.rs:1287 `key.store_b64::<MAX_B64_KEY_SIZE, _>(of)?` (secret visibility). -/
def storeKey (a : App) (file : String) (key : Bytes) (e : World) : Res :=
  if e.openOk then
    match FileIO.storeB64 a.fs e.umask file .secret maxB64KeySize key e.writes with
    | (none, fs) => ⟨.killed, { a with fs := fs }, []⟩
    | (some (.error _), fs) => ⟨.error, { a with fs := fs }, []⟩
    | (some (.ok ()), fs) => ⟨.next, { a with fs := fs }, []⟩
  else ⟨.error, a, []⟩

/-- app_server.rs:1261-1308 `output_key`. -/
def outputKey (C : Crypto) (a : App) (p : Nat) (why : Reason) (key : Bytes) (e : World) : Res :=
  match a.site.productRef with
  | none => ⟨.error, a, []⟩
  | some srv =>
    match srv.peers[p]?, a.peers[p]? with
    | some peer, some ap =>
      let r : Res := match ap.outfile with
        | none => ⟨.next, a, []⟩
        | some file =>
          (a.storeKey file key e).andThen fun a =>
            if e.lineOk then ⟨.next, a, [.line (Server.pidt C peer) file why]⟩ else ⟨.error, a, []⟩
      r.andThen fun a => a.setPsk p key e
    | _, _ => ⟨.panic, a, []⟩

/-- app_server.rs:651-659 `Endpoint::send` for the endpoint in use by peer `p`: 395-402 `send_to`,
755-797 `send_scouting`. The scouting state is stored in that endpoint (`current` if set). -/
def sendPeer (a : App) (p : Nat) (msg : Bytes) (e : World) : Res :=
  match a.peers[p]? with
  | none => ⟨.panic, a, []⟩
  | some ap =>
    match ap.endpoint with
    | none => ⟨.panic, a, []⟩
    | some (.bound s addr) => if e.sendTo then ⟨.next, a, [.datagram s addr msg]⟩ else ⟨.error, a, []⟩
    | some (.discovery d) =>
      let (x, d1) := d.sendScouting a.nsock e.scout
      let ep := Endpoint.discovery d1
      let ap1 := if ap.current.isSome then { ap with current := some ep } else { ap with initial := some ep }
      let a1 := { a with peers := a.peers.set p ap1 }
      if x.ok then
        match x.tried.getLast? with
        | none => ⟨.next, a1, []⟩
        | some (ai, si) =>
          match d.addresses[ai]? with
          | none => ⟨.panic, a1, []⟩
          | some addr => ⟨.next, a1, [.datagram si addr msg]⟩
      else ⟨.error, a1, []⟩

/-- app_server.rs:1124-1137 `tx_maybe_with!`: nothing at all happens without an endpoint. -/
def txMaybe (a : App) (p : Nat) (call : Server → Except Err Bytes × Server) (e : World) : Res :=
  match a.peers[p]? with
  | none => ⟨.panic, a, []⟩
  | some ap =>
    if ap.endpoint.isSome then
      match a.site.productRef with
      | none => ⟨.error, a, []⟩
      | some srv =>
        match call srv with
        | (.error x, s1) => ⟨fateOf x, { a with site := .product s1 }, []⟩
        | (.ok msg, s1) => ({ a with site := .product s1 }).sendPeer p msg e
    else ⟨.next, a, []⟩

/-- app_server.rs:1181-1193: `DeleteKey`. -/
def deleteKey (C : Crypto) (a : App) (p : Nat) (e : World) : Res :=
  (a.outputKey C p .stale e.stale e).andThen fun a =>
    match a.peers[p]? with
    | none => ⟨.panic, a, []⟩
    | some ap => ⟨.next, { a with peers := a.peers.set p { ap with current := Endpoint.fromSources ap.current ap.initial } }, []⟩

/-- app_server.rs:1220-1230: a key was exchanged with peer `p`. -/
def exchanged (C : Crypto) (a : App) (p : Nat) (sock : Nat) (addr : Addr) (e : World) : Res :=
  match a.peers[p]? with
  | none => ⟨.panic, a, []⟩
  | some ap =>
    let a := { a with peers := a.peers.set p { ap with current := some (.bound sock addr) } }
    match a.site.productRef with
    | none => ⟨.error, a, []⟩
    | some srv =>
      match srv.osk C p with
      | .error x => ⟨fateOf x, a, []⟩
      | .ok key => a.outputKey C p .exchanged key e

/-- app_server.rs:1215-1231, after a message was processed: the response is sent first. -/
def received (C : Crypto) (a : App) (m : Server.MsgResult) (sock : Nat) (addr : Addr) (e : World) : Res :=
  let r : Res := match m.resp with
    | none => ⟨.next, a, []⟩
    | some msg => if e.sendTo then ⟨.next, a, [.datagram sock addr msg]⟩ else ⟨.error, a, []⟩
  r.andThen fun a =>
    match m.exchanged with
    | none => ⟨.next, a, []⟩
    | some p => a.exchanged C p sock addr e

/-- app_server.rs:1196-1214: a message was received (1241-1257 `handle_msg_under_load`). Errors of the
protocol server are only logged. -/
def message (C : Crypto) (a : App) (srv : Server) (rx : Bytes) (sock : Nat) (addr : Addr) (e : World) : Res :=
  let x := if e.load then srv.handleMsgUnderLoad C rx e.tx (hostId sock addr) e.later e.rnd
    else srv.handleMsg C rx e.tx e.later e.rnd
  let a := { a with site := .product x.2 }
  match x.1 with
  | .error .panic => ⟨.panic, a, []⟩
  | .error _ => ⟨.next, a, []⟩
  | .ok m => a.received C m sock addr e

/-- One round of app_server.rs:1140-1237 `event_loop_without_error_handling` with 1313-1350 `poll`:
the protocol server is polled, its event is served; if it has none, `try_recv` is called. -/
def step (C : Crypto) (a : App) (e : World) : Res :=
  match a.site with
  | .product s =>
    match s.poll e.now e.prnd with
    | none => ⟨.panic, a, []⟩
    | some (res, s1) =>
      let a := { a with site := .product s1 }
      match res with
      | .deleteKey p => a.deleteKey C p e
      | .sendInitiation p => a.txMaybe p (fun s => s.initiate C p e.later e.rnd0 e.tx) e
      | .sendRetransmission p => a.txMaybe p (fun s => s.retransmit C p e.tx) e
      | .sleep _ =>
        match e.io with
        | .none => ⟨.next, a, []⟩
        | .terminate => ⟨.exit, a, []⟩
        | .err => ⟨.error, a, []⟩
        | .msg rx sock addr => a.message C s1 rx sock addr e
  | _ =>
    match e.io with
    | .none => ⟨.next, a, []⟩
    | .terminate => ⟨.exit, a, []⟩
    | .err => ⟨.error, a, []⟩
    | .msg _ _ _ => ⟨.next, a, []⟩

/-- A peer to be added: key material, where to output keys, and how its host name resolves (`none`: no
host name given; `some none`: resolution fails; 1062-1064 `discovery_from_hostname`). -/
structure NewPeer where
  params : PeerParams
  outfile : Option String
  broker : Option (Nat × String)
  host : Option (Option (List Addr))

/-- app_server.rs:1061-1072: the end of `add_peer`. -/
def pushPeer (a : App) (pn : Nat) (x : NewPeer) : Except Fate Nat × App :=
  match x.host with
  | none => (.ok pn, { a with peers := a.peers ++ [⟨x.outfile, x.broker, none, none⟩] })
  | some none => (.error .error, a)
  | some (some l) =>
    (.ok pn, { a with peers := a.peers ++ [⟨x.outfile, x.broker, some (.discovery (.fromAddresses l)), none⟩] })

/-- app_server.rs:1041-1073 `add_peer`. -/
def addPeer (C : Crypto) (a : App) (x : NewPeer) : Except Fate Nat × App :=
  let r : Except Fate Nat × App := match a.site with
    | .void => (.error .error, a)
    | .builder b => (.ok (b.addPeer x.params).1, { a with site := .builder (b.addPeer x.params).2 })
    | .product s =>
      match s.addPeer C x.params.psk x.params.pk x.params.version x.params.osk with
      | (.error y, s1) => (.error (fateOf y), { a with site := .product s1 })
      | (.ok pn, s1) => (.ok pn, { a with site := .product s1 })
  match r with
  | (.error f, a) => (.error f, a)
  | (.ok pn, a) =>
    if pn = a.peers.length then a.pushPeer pn x else (.error .panic, a)

/-- app_server.rs:803-958 `new` with `nsock` bound sockets (token 0 is the signal handler, the following
ones are the sockets). -/
def new (keypair : Option (Bytes × Bytes)) (r : NewRnd) (nsock : Nat) (fs : Fs) : App :=
  let site := match keypair with
    | some (sk, pk) => Site.product (Server.new sk pk r.b0 r.b1 r.c0 r.c1 r.kk)
    | none => .builder .empty
  { site := site, nsock := nsock, peers := [], brokers := { store := [], io := [], next := nsock + 1 }, fs := fs }

/-- Answers to a request to supply the key pair (api/boilerplate/payload.rs `supply_keypair_response_status`). -/
inductive Supply where
  | ok | already | internal
  deriving DecidableEq, Repr

/-- api/api_handler.rs:168-216, the part of `supply_keypair` after the key files were read: `crypto_site`
is checked, the key pair is put into the builder and the server is built. -/
def supply (C : Crypto) (a : App) (keypair : Bytes × Bytes) (r : NewRnd) : Supply × App :=
  match a.site with
  | .void => (.internal, a)
  | .product _ => (.already, a)
  | .builder b =>
    let x := (Site.builder { b with keypair := some keypair }).erect (T := Server)
      (fun b => (b.build C r).getD (.error (.addPeer .panic)))
    match x.1 with
    | .ok () => (.ok, { a with site := x.2 })
    | .error _ => (.internal, { a with site := x.2 })

/-- What happens to the application: rounds of the event loop, and the calls of `main` and of the API. -/
inductive Act where
  | round (e : World)
  | addPeer (x : NewPeer)
  | supply (keypair : Bytes × Bytes) (r : NewRnd)
  | registerBroker (name : Nat) (ok : Bool)
  | unregisterBroker (ptr : Nat) (ok : Bool)
  | addSocket

/-- The state afterwards (972-985 `register_listen_socket` for `addSocket`). -/
def apply (C : Crypto) (a : App) : Act → App
  | .round e => (a.step C e).app
  | .addPeer x => (a.addPeer C x).2
  | .supply kp r => (a.supply C kp r).2
  | .registerBroker name ok => { a with brokers := (a.brokers.register name ok).2 }
  | .unregisterBroker ptr ok => { a with brokers := (a.brokers.unregister ptr ok).2 }
  | .addSocket => { a with nsock := a.nsock + 1, brokers := { a.brokers with next := a.brokers.next + 1 } }

/-- How `event_loop` stands after some rounds: still running, returned `Ok`, gave up ("too many network
failures"), panicked, or did not return from a write. -/
inductive LoopEnd where
  | running | ok | gaveUp | panic | killed
  deriving DecidableEq, Repr

/-- app_server.rs:1080-1114 `event_loop` around 1119-1238: the rounds the environment gives, starting with
`cnt` for `failure_cnt`. A round that fails ends the inner loop; `msgs_processed` is the constant 0, so the
counter always grows. (The waiting time before the restart is not modelled.) -/
def loop (C : Crypto) (a : App) (cnt : Nat) : List World → LoopEnd × App
  | [] => (.running, a)
  | e :: es =>
    let r := a.step C e
    match r.fate with
    | .next => r.app.loop C cnt es
    | .exit => (.ok, r.app)
    | .panic => (.panic, r.app)
    | .killed => (.killed, r.app)
    | .error =>
      let msgsProcessed := 0
      let cnt := if msgsProcessed > 0 then 0 else cnt + 1
      let triesLeft : Int := 10 - ((cnt : Int) - 1)
      if triesLeft > 0 then r.app.loop C cnt es else (.gaveUp, r.app)

end App
end Verif
