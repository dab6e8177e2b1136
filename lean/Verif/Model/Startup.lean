import Verif.Model.App
import Verif.Model.Config
/-
Model of how the server is started: rosenpass/src/cli.rs `event_loop`, the sockets of `AppServer::new`, and
`apply_to_app_server`/`create_broker`/`register_broker` as far as they decide whether the start succeeds.
-/
namespace Verif.Startup
open App (NewPeer)

/-- What the files and the name service give while the program starts (they are taken not to change between `validate` and
the start): the result of `SPk::load`, `SSk::load`, `SymKey::load_b64::<1000>` (util/src/file.rs, see Model/FileIO.lean) for
a path, and of `to_socket_addrs` for a name. -/
structure Disk where
  isFile : String → Bool
  spk : String → Option Bytes
  ssk : String → Option Bytes
  psk : String → Option Bytes
  resolve : String → Option (List Addr)

/-- what `validate` sees of it (config.rs:345-423) -/
def Disk.probe (d : Disk) : Config.Probe :=
  ⟨d.isFile, fun p => (d.spk p).isSome, fun p => (d.ssk p).isSome, fun p => (d.resolve p).isSome⟩

/-- the bytes of a string -/
def utf8 (s : String) : Bytes := s.toUTF8.data.toList

/-- wireguard-broker/src/brokers/native_unix.rs:214-225 `peer_id_b64` -/
def wgPeerId (s : String) : Option Bytes :=
  match FileIO.b64Decode (utf8 s) (List.replicate 32 0) with
  | .ok b => some b
  | .error _ => none

/-- What else the operating system decides: whether each address of `listen` can be bound, whether the default IPv6 and
IPv4 sockets can, what `only_v6` says, whether polling, the signal handler and registration (app_server.rs:809-833, 905-912)
work, whether the API sources (config.rs `apply_to_app_server`) and the broker (cli.rs:476-477) can be set up; and the
random values of `CryptoServer::new`. `cfg` is what the broker will be told about a WireGuard peer. -/
structure Env where
  bind : Nat → Bool
  bindV6 : Bool
  onlyV6 : Option Bool
  bindV4 : Bool
  mio : Bool
  api : Bool
  broker : Bool
  name : Nat
  rnd : NewRnd
  fs : FileIO.Fs
  cfg : Config.Wg → Bytes → String

/-- a bound socket -/
inductive Sock where
  | addr (a : Addr)
  | anyV6
  | anyV4
  deriving DecidableEq

/-- app_server.rs:835-837: `bind` for each address (the first is number `i`), collected into a `Result` -/
def bindAll (bind : Nat → Bool) : Nat → List Addr → Option (List Sock)
  | _, [] => some []
  | i, a :: as =>
    if bind i then
      match bindAll bind (i + 1) as with
      | none => none
      | some l => some (.addr a :: l)
    else none

/-- app_server.rs:834-903: the sockets -/
def openSockets (e : Env) (listen : List Addr) : Option (List Sock) :=
  match bindAll e.bind 0 listen with
  | none => none
  | some sockets =>
    let sockets :=
      if sockets.isEmpty then
        let v6 := e.bindV6
        let sockets := if v6 then sockets ++ [.anyV6] else sockets
        let needV4 := if v6 then (match e.onlyV6 with | some v => v | none => true) else true
        if needV4 then (if e.bindV4 then sockets ++ [.anyV4] else sockets) else sockets
      else sockets
    if sockets.isEmpty then none else some sockets

/-- config.rs:219-228: the domain separator of a peer -/
def oskOf (p : Config.Peer) : Option OskDomain :=
  match Config.orgAndLabel p with
  | none => none
  | some none => some .wireguardPsk
  | some (some (org, label)) => some (.custom (utf8 org) (label.map utf8))

/-- cli.rs:483-514: the arguments of `add_peer`, in the order in which they are evaluated. The interface name is not checked
here, and the extra parameters can always be serialised (native_unix.rs:248-258). -/
def peerArgs (d : Disk) (e : Env) (ptr : Nat) (p : Config.Peer) : Option NewPeer :=
  match (match p.wg with
    | none => some none
    | some w =>
      match wgPeerId w.peer with
      | none => none
      | some id => some (some (ptr, e.cfg w id))) with
  | none => none
  | some broker =>
    match (match p.psk with
      | none => some none
      | some f =>
        match d.psk f with
        | none => none
        | some k => some (some k)) with
    | none => none
    | some psk =>
      match d.spk p.publicKey with
      | none => none
      | some pk =>
        match oskOf p with
        | none => none
        | some osk => some ⟨⟨psk, pk, p.version, osk⟩, p.keyOut, broker, p.endpoint.map d.resolve⟩

/-- cli.rs:483-515: the loop over the peers -/
def addPeers (C : Crypto) (d : Disk) (e : Env) (ptr : Nat) (a : App) : List Config.Peer → Except Fate App
  | [] => .ok a
  | p :: ps =>
    match peerArgs d e ptr p with
    | none => .error .error
    | some x =>
      match a.addPeer C x with
      | (.error f, _) => .error f
      | (.ok _, a) => addPeers C d e ptr a ps

/-- cli.rs:442-451: the keys, secret key first (`kp` is public key, secret key) -/
def loadKeys (d : Disk) (kp : Option (String × String)) : Option (Option (Bytes × Bytes)) :=
  match kp with
  | none => some none
  | some (pkf, skf) =>
    match d.ssk skf with
    | none => none
    | some sk =>
      match d.spk pkf with
      | none => none
      | some pk => some (some (sk, pk))

/-- cli.rs:435-517 `event_loop` up to the call of `srv.event_loop()`. -/
def startup (C : Crypto) (d : Disk) (e : Env) (c : Config.Config Addr) : Except Fate (App × List Sock) :=
  match loadKeys d c.keypair with
  | none => .error .error
  | some kp =>
    if !e.mio then .error .error
    else match openSockets e c.listen with
      | none => .error .error
      | some socks =>
        let a := App.new kp e.rnd socks.length e.fs
        if !e.api then .error .error
        else match a.brokers.register e.name e.broker with
          | (.error .panic, _) => .error .panic
          | (.error _, _) => .error .error
          | (.ok ptr, b) =>
            match addPeers C d e ptr { a with brokers := b } c.peers with
            | .error f => .error f
            | .ok a => .ok (a, socks)

end Verif.Startup
