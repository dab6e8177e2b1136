import Verif.Model.Config
import Verif.Model.RpExchange
/-
Reading and writing of configurations: the `Serialize` and `Deserialize` instances that serde derives from rosenpass/src/config.rs,
rosenpass/src/api/config.rs and rp/src/exchange.rs with their attributes (`deny_unknown_fields`, `flatten`, `default`, `skip`), on TOML values.

What is written down here is the code serde_derive 1.0 generates for these types and the behaviour of `toml` 1.1 for the calls of this code (neither
is part of the repository): a struct without a flattened field reads a table or an array, one with a flattened field reads only a table; entries
for no field are refused, or, if there is a flattened field, collected, offered to the flattened fields one after the other (`FlatMapDeserializer`, which
takes the entries of the flattened struct's fields out, in the order of the table, until a value does not fit), and refused if they are left over; a flattened `Option` is
`None` if its struct cannot be read; an absent `Option` field is `None`; writing leaves out `None`.
Simplifications: which error is reported is left out; a table holds each key at most once (TOML), so `duplicate field` does not occur. The text of TOML
is not modelled: files are TOML values. Floating point numbers and dates have no content here, as no setting accepts one.
-/
namespace Verif.ConfigToml
open Config (Wg Api Config)

/-- a TOML value -/
inductive Val where
  | str (s : String)
  | int (n : Int)
  | bool (b : Bool)
  | float
  | date
  | arr (l : List Val)
  | tbl (l : List (String × Val))

/-- the entries of a table, in the order in which they are read -/
abbrev Tbl := List (String × Val)

/-- the value of a key -/
def get : Tbl → String → Option Val
  | [], _ => none
  | (k', v) :: r, k => if k' = k then some v else get r k

/-! ### Values of the simple types -/

/-- `String`, `PathBuf` -/
def deStr : Val → Option String
  | .str s => some s
  | _ => none

/-- `SocketAddr` in a human readable format: `parse` is `SocketAddr::from_str` -/
def deAddr {A : Type} (parse : String → Option A) : Val → Option A
  | .str s => parse s
  | _ => none

/-- `i32` -/
def deI32 : Val → Option Int
  | .int n => if -2147483648 ≤ n ∧ n ≤ 2147483647 then some n else none
  | _ => none

/-- `u32` -/
def deU32 : Val → Option Nat
  | .int n => if 0 ≤ n ∧ n ≤ 4294967295 then some n.toNat else none
  | _ => none

/-- `bool` -/
def deBool : Val → Option Bool
  | .bool b => some b
  | _ => none

/-- the elements of an array, until one does not fit -/
def deAll {α : Type} (f : Val → Option α) : List Val → Option (List α)
  | [] => some []
  | v :: l =>
    match f v with
    | none => none
    | some x => (deAll f l).map (x :: ·)

/-- `Vec` -/
def deVec {α : Type} (f : Val → Option α) : Val → Option (List α)
  | .arr l => deAll f l
  | _ => none

/-- an enum of unit variants: the name, or a table with the name as its only key and nothing in it -/
def deEnum {α : Type} (name : String → Option α) : Val → Option α
  | .str s => name s
  | .tbl [(s, .tbl [])] => name s
  | .tbl [(s, .arr [])] => name s
  | _ => none

/-- config.rs:106-111 `Verbosity` -/
def verbosity : String → Option Bool
  | "Quiet" => some false
  | "Verbose" => some true
  | _ => none

/-- config.rs:114-121 `ProtocolVersion` -/
def protocolVersion : String → Option Version
  | "V02" => some .v02
  | "V03" => some .v03
  | _ => none

/-! ### Fields -/

/-- a field that must be there -/
def need {α : Type} (f : Val → Option α) (es : Tbl) (k : String) : Option α := (get es k).bind f

/-- a field of type `Option` -/
def opt {α : Type} (f : Val → Option α) (es : Tbl) (k : String) : Option (Option α) :=
  match get es k with
  | none => some none
  | some v => (f v).map some

/-- `#[serde(default)]` -/
def dflt {α : Type} (f : Val → Option α) (d : α) (es : Tbl) (k : String) : Option α :=
  match get es k with
  | none => some d
  | some v => f v

/-- What `FlatMapDeserializer` hands to a flattened struct with the given fields: the entries taken, whether all their values fit, and the entries left over. -/
def flat (fields : List String) (fits : String → Val → Bool) : Tbl → Tbl × Bool × Tbl
  | [] => ([], true, [])
  | (k, v) :: r =>
    if k ∈ fields then
      if fits k v then
        let x := flat fields fits r
        ((k, v) :: x.1, x.2.1, x.2.2)
      else ([(k, v)], false, r)
    else
      let x := flat fields fits r
      (x.1, x.2.1, (k, v) :: x.2.2)

/-- entries of no field -/
def others (fields : List String) (es : Tbl) : Tbl := es.filter fun e => e.1 ∉ fields

/-! ### rosenpass/src/config.rs -/

/-- config.rs:78-87 `Keypair`, flattened into `Rosenpass` as an `Option` (41-43) -/
def deKeypair (es : Tbl) : Option (String × String) × Tbl :=
  let x := flat ["public_key", "secret_key"] (fun _ v => (deStr v).isSome) es
  (if x.2.1 then
    match need deStr x.1 "public_key", need deStr x.1 "secret_key" with
    | some p, some s => some (p, s)
    | _, _ => none
  else none, x.2.2)

/-- config.rs:230-245 `WireGuard`, flattened into `RosenpassPeer` as an `Option` (150-152) -/
def deWg (es : Tbl) : Option Wg × Tbl :=
  let x := flat ["device", "peer", "extra_params"]
    (fun k v => if k = "extra_params" then (deVec deStr v).isSome else (deStr v).isSome) es
  (if x.2.1 then
    match need deStr x.1 "device", need deStr x.1 "peer", dflt (deVec deStr) [] x.1 "extra_params" with
    | some d, some p, some e => some ⟨d, p, e⟩
    | _, _, _ => none
  else none, x.2.2)

/-- config.rs:163-197 `RosenpassPeerOskDomainSeparator`, flattened into `RosenpassPeer` (158-160) -/
def deOsk (es : Tbl) : Option ((Option String × Option (List String)) × Tbl) :=
  let x := flat ["osk_organization", "osk_label"]
    (fun k v => if k = "osk_label" then (deVec deStr v).isSome else (deStr v).isSome) es
  if x.2.1 then
    match opt deStr x.1 "osk_organization", opt (deVec deStr) x.1 "osk_label" with
    | some o, some l => some ((o, l), x.2.2)
    | _, _ => none
  else none

/-- the fields of `RosenpassPeer` that are not flattened -/
def peerFields : List String := ["public_key", "endpoint", "pre_shared_key", "key_out", "protocol_version"]

/-- config.rs:123-161 `RosenpassPeer`: reading -/
def dePeer : Val → Option Config.Peer
  | .tbl es =>
    match need deStr es "public_key", opt deStr es "endpoint", opt deStr es "pre_shared_key", opt deStr es "key_out",
        dflt (deEnum protocolVersion) .v02 es "protocol_version" with
    | some pk, some ep, some psk, some ko, some v =>
      let w := deWg (others peerFields es)
      match deOsk w.2 with
      | none => none
      | some (osk, left) => if left.isEmpty then some ⟨pk, ep, psk, ko, w.1, v, osk.1, osk.2⟩ else none
    | _, _, _, _, _ => none
  | _ => none

/-- rosenpass/src/api/config.rs:9-25 `ApiConfig`: reading. An array gives the fields in their order; further elements are not looked at. -/
def deApi : Val → Option Api
  | .tbl es =>
    if (others ["listen_path", "listen_fd", "stream_fd"] es).isEmpty then
      match need (deVec deStr) es "listen_path", need (deVec deI32) es "listen_fd", need (deVec deI32) es "stream_fd" with
      | some p, some l, some s => some ⟨p, l, s⟩
      | _, _, _ => none
    else none
  | .arr (p :: l :: s :: _) =>
    match deVec deStr p, deVec deI32 l, deVec deI32 s with
    | some p, some l, some s => some ⟨p, l, s⟩
    | _, _, _ => none
  | _ => none

/-- the fields of `Rosenpass` that are not flattened or skipped -/
def configFields : List String := ["api", "listen", "verbosity", "peers"]

/-- config.rs:34-76 `Rosenpass`: reading (with the feature `experiment_api`; config.rs:20-32 `empty_api_config`) -/
def deConfig {A : Type} (parse : String → Option A) : Val → Option (Config A)
  | .tbl es =>
    match dflt deApi .default es "api", need (deVec (deAddr parse)) es "listen", dflt (deEnum verbosity) false es "verbosity",
        need (deVec dePeer) es "peers" with
    | some api, some listen, some verb, some peers =>
      let k := deKeypair (others configFields es)
      if k.2.isEmpty then some ⟨k.1, listen, verb, peers, api⟩ else none
    | _, _, _, _ => none
  | _ => none

/-- an entry for a field of type `Option`: left out if it is `None` -/
def serOpt {α : Type} (f : α → Val) (k : String) : Option α → Tbl
  | none => []
  | some x => [(k, f x)]

/-- config.rs:230-245 `WireGuard`: writing -/
def serWg : Option Wg → Tbl
  | none => []
  | some w => [("device", .str w.device), ("peer", .str w.peer), ("extra_params", .arr (w.extra.map .str))]

/-- the name of a protocol version -/
def versionName : Version → String
  | .v02 => "V02"
  | .v03 => "V03"

/-- config.rs:123-161 `RosenpassPeer`: writing -/
def serPeer (p : Config.Peer) : Val :=
  .tbl ([("public_key", .str p.publicKey)] ++ serOpt .str "endpoint" p.endpoint ++ serOpt .str "pre_shared_key" p.psk ++
    serOpt .str "key_out" p.keyOut ++ serWg p.wg ++ [("protocol_version", .str (versionName p.version))] ++
    serOpt .str "osk_organization" p.oskOrg ++ serOpt (fun l => .arr (l.map .str)) "osk_label" p.oskLabel)

/-- rosenpass/src/api/config.rs:9-25 `ApiConfig`: writing -/
def serApi (a : Api) : Val :=
  .tbl [("listen_path", .arr (a.listenPath.map .str)), ("listen_fd", .arr (a.listenFd.map .int)), ("stream_fd", .arr (a.streamFd.map .int))]

/-- config.rs:78-87 `Keypair`: writing -/
def serKeypair : Option (String × String) → Tbl
  | none => []
  | some k => [("public_key", .str k.1), ("secret_key", .str k.2)]

/-- config.rs:34-76 `Rosenpass`: writing (310-311, 325); `disp` is `SocketAddr::to_string` -/
def serConfig {A : Type} (disp : A → String) (c : Config A) : Val :=
  .tbl (serKeypair c.keypair ++ [("api", serApi c.api), ("listen", .arr (c.listen.map fun a => .str (disp a))),
    ("verbosity", .str (if c.verbose then "Verbose" else "Quiet")), ("peers", .arr (c.peers.map serPeer))])

/-! ### rp/src/exchange.rs -/

/-- rp/src/exchange.rs:62-79 `ExchangePeer`: reading -/
def deRpPeer (parse : String → Option Addr) : Val → Option RpExchange.Peer
  | .tbl es =>
    if (others ["public_keys_dir", "endpoint", "persistent_keepalive", "allowed_ips", "protocol_version"] es).isEmpty then
      match need deStr es "public_keys_dir", opt (deAddr parse) es "endpoint", opt deU32 es "persistent_keepalive",
          opt deStr es "allowed_ips", dflt (deEnum protocolVersion) .v02 es "protocol_version" with
      | some d, some e, some k, some a, some v => some ⟨d, e, k, a, v⟩
      | _, _, _, _, _ => none
    else none
  | .arr (d :: e :: k :: a :: r) =>
    match deStr d, deAddr parse e, deU32 k, deStr a, (match r with | [] => some .v02 | v :: _ => deEnum protocolVersion v) with
    | some d, some e, some k, some a, some v => some ⟨d, some e, some k, some a, v⟩
    | _, _, _, _, _ => none
  | _ => none

/-- rp/src/exchange.rs:82-100 `ExchangeOptions`: reading, with `verbose` (a file is a table, main_supported_platforms.rs:49) -/
def deOptions (parse : String → Option Addr) : Val → Option (Bool × RpExchange.Options)
  | .tbl es =>
    if (others ["verbose", "private_keys_dir", "dev", "ip", "listen", "peers"] es).isEmpty then
      match need deBool es "verbose", need deStr es "private_keys_dir", opt deStr es "dev", opt deStr es "ip",
          opt (deAddr parse) es "listen", need (deVec (deRpPeer parse)) es "peers" with
      | some b, some d, some dev, some ip, some l, some ps => some (b, ⟨d, dev, ip, l, ps⟩)
      | _, _, _, _, _, _ => none
    else none
  | _ => none

end Verif.ConfigToml
