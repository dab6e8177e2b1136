import Verif.Model.Startup
import Verif.Model.NativeUnix
import Verif.Model.KeyGen
/-
Model of `exchange` in rp/src/exchange.rs 432-544 up to the call of `srv.event_loop()`: what it loads, what it tells the kernel, the
`ip` command and the application server. The life of the network device is Model/RpDevice.lean; here creating and configuring it either works or fails.
-/
namespace Verif.RpExchange
open App (NewPeer)
open KeyGen (join)
open NativeUnix (txt)

/-- rp/src/exchange.rs:62-79 `ExchangePeer` -/
structure Peer where
  dir : String
  endpoint : Option Addr
  keepalive : Option Nat
  allowedIps : Option String
  version : Version
  deriving DecidableEq

/-- rp/src/exchange.rs:82-100 `ExchangeOptions`; `verbose` only changes what is logged. -/
structure Options where
  dir : String
  dev : Option String
  ip : Option String
  listen : Option Addr
  peers : List Peer

/-- What the files give (for a path): `load_b64::<WG_B64_LEN>`, `SSk::load`, `SPk::load`, `tokio::fs::read_to_string`, `Path::exists`; and
what `to_socket_addrs` gives. -/
structure Disk where
  wgsk : String → Option Bytes
  ssk : String → Option Bytes
  spk : String → Option Bytes
  text : String → Option String
  present : String → Bool
  psk : String → Option Bytes
  resolve : String → Option (List Addr)

/-- What else decides: `rel`, overflow checks are off; `display`, `SocketAddr::to_string`; whether the device can be created and configured; how the
`ip` commands end (`none`: it cannot be started; otherwise its exit status); for the application server see Startup.Env. `cfg` names broker configurations. -/
structure Env where
  rel : Bool
  display : Addr → String
  create : Bool
  configure : Bool
  ip : Option Nat
  route : Nat → Option Nat
  app : Startup.Env
  cfg : NativeUnix.Base → String

/-- What is done to the system, in order. -/
inductive Eff where
  | create (name : String)
  | configure (name : String) (key : Bytes) (port : Option UInt16)
  | addIp (ip name : String)
  | route (ips name : String)
  deriving DecidableEq, Repr

/-- `port + 1` on `u16`: `none` is a panic. -/
def plus1 (rel : Bool) (p : UInt16) : Option UInt16 :=
  if p = 65535 then (if rel then some 0 else none) else some (p + 1)

def _root_.Verif.Addr.portOf : Addr → UInt16
  | .v4 _ p => p
  | .v6 _ p _ _ => p

/-- exchange.rs:497 `SocketAddr::new(endpoint.ip(), port)` -/
def withPort : Addr → UInt16 → Addr
  | .v4 ip _, p => .v4 ip p
  | .v6 ip _ _ _, p => .v6 ip p 0 0

/-- exchange.rs:491-507: the extra parameters; `none` is a panic. -/
def params (e : Env) (p : Peer) : Option (List String) :=
  match (match p.endpoint with
    | none => some []
    | some a =>
      match plus1 e.rel a.portOf with
      | none => none
      | some q => some ["endpoint", e.display (withPort a q)]) with
  | none => none
  | some ep =>
    let ka := match p.keepalive with | none => [] | some n => ["persistent-keepalive", toString n]
    let ai := match p.allowedIps with | none => [] | some s => ["allowed-ips", s]
    some (ep ++ ka ++ ai)

/-- exchange.rs:482-487: the pre-shared key, only if the file exists; the outer `none` is an error. -/
def loadPsk (d : Disk) (p : Peer) : Option (Option Bytes) :=
  if d.present (join p.dir "psk") then
    match d.psk (join p.dir "psk") with
    | none => none
    | some k => some (some k)
  else some none

/-- exchange.rs:473-530: the arguments of `add_peer` -/
def peerArgs (d : Disk) (e : Env) (name : String) (ptr : Nat) (p : Peer) : Except Fate NewPeer :=
  match d.text (join p.dir "wgpk") with
  | none => .error .error
  | some wgpk =>
    match d.spk (join p.dir "pqpk") with
    | none => .error .error
    | some pk =>
      match loadPsk d p with
      | none => .error .error
      | some psk =>
        match params e p with
        | none => .error .panic
        | some ps =>
          match NativeUnix.build (txt wgpk) (txt name) (ps.map txt) with
          | none => .error .error
          | some b => .ok ⟨⟨psk, pk, p.version, .wireguardPsk⟩, none, some (ptr, e.cfg b), p.endpoint.map fun a => d.resolve (e.display a)⟩

/-- exchange.rs:471-540: the loop over the peers (the first is number `i`). The exit status of `ip` is not looked at. -/
def addPeers (C : Crypto) (d : Disk) (e : Env) (name : String) (ptr : Nat) : Nat → App → List Peer → Except Fate App × List Eff
  | _, a, [] => (.ok a, [])
  | i, a, p :: ps =>
    match peerArgs d e name ptr p with
    | .error f => (.error f, [])
    | .ok x =>
      match a.addPeer C x with
      | (.error f, _) => (.error f, [])
      | (.ok _, a) =>
        match p.allowedIps with
        | none => addPeers C d e name ptr (i + 1) a ps
        | some ips =>
          match e.route i with
          | none => (.error .error, [])
          | some _ =>
            let (r, l) := addPeers C d e name ptr (i + 1) a ps
            (r, .route ips name :: l)

/-- exchange.rs:453 `options.listen.map(|ip| ip.port() + 1)`; the outer `none` is a panic. -/
def wgPort (e : Env) (o : Options) : Option (Option UInt16) :=
  match o.listen with
  | none => some none
  | some a =>
    match plus1 e.rel a.portOf with
    | none => none
    | some q => some (some q)

/-- exchange.rs:461-469 and the loop -/
def serve (C : Crypto) (d : Disk) (e : Env) (name : String) (sk pk : Bytes) (o : Options) : Except Fate (App × List Startup.Sock) × List Eff :=
  if !e.app.mio then (.error .error, [])
  else match Startup.openSockets e.app o.listen.toList with
    | none => (.error .error, [])
    | some socks =>
      let a := App.new (some (sk, pk)) e.app.rnd socks.length e.app.fs
      match a.brokers.register e.app.name e.app.broker with
      | (.error .panic, _) => (.error .panic, [])
      | (.error _, _) => (.error .error, [])
      | (.ok ptr, b) =>
        match addPeers C d e name ptr 0 { a with brokers := b } o.peers with
        | (.error f, l) => (.error f, l)
        | (.ok a, l) => (.ok (a, socks), l)

/-- exchange.rs:432-541 `exchange` until the server runs: what comes of it, and what was done to the system. -/
def exchange (C : Crypto) (d : Disk) (e : Env) (o : Options) : Except Fate (App × List Startup.Sock) × List Eff :=
  match d.wgsk (join o.dir "wgsk") with
  | none => (.error .error, [])
  | some wgsk =>
    match d.ssk (join o.dir "pqsk") with
    | none => (.error .error, [])
    | some sk =>
      match d.spk (join o.dir "pqpk") with
      | none => (.error .error, [])
      | some pk =>
        let name := o.dev.getD "rosenpass0"
        if !e.create then (.error .error, [])
        else
          match wgPort e o with
          | none => (.error .panic, [.create name])
          | some port =>
            if !e.configure then (.error .error, [.create name])
            else
              match o.ip with
              | none =>
                let (r, l) := serve C d e name sk pk o
                (r, .create name :: .configure name wgsk port :: l)
              | some ip =>
                match e.ip with
                | none => (.error .error, [.create name, .configure name wgsk port])
                | some _ =>
                  let (r, l) := serve C d e name sk pk o
                  (r, .create name :: .configure name wgsk port :: .addIp ip name :: l)

end Verif.RpExchange
