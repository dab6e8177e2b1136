import Verif.Model.FileIO
import Verif.Model.Server
/-
Model of rosenpass/src/config.rs: `Rosenpass::parse_args`, `Rosenpass::validate`, `org_and_label`, `check_usefullness`.

Paths and names are strings. Name resolution (`ToSocketAddrs`) is a parameter. Panics are modelled. Log output is not.
TOML reading and writing (serde) is in Model/ConfigToml.lean.
-/
namespace Verif.Config
open FileIO (Fs R)

/-- config.rs:231-245 `WireGuard` -/
structure Wg where
  device : String
  peer : String
  extra : List String
  deriving DecidableEq, Repr

/-- config.rs:117-153 `RosenpassPeer`, with 160-190 `RosenpassPeerOskDomainSeparator` (`parse_args` never sets the protocol
version and the domain separator). -/
structure Peer where
  publicKey : String
  endpoint : Option String
  psk : Option String
  keyOut : Option String
  wg : Option Wg
  version : Version
  oskOrg : Option String
  oskLabel : Option (List String)
  deriving DecidableEq, Repr

/-- `RosenpassPeer::default()` -/
def Peer.default : Peer := ⟨"", none, none, none, none, .v02, none, none⟩

/-- rosenpass/src/api/config.rs:9-24 `ApiConfig`: where the API listens, listening descriptors, connected descriptors -/
structure Api where
  listenPath : List String
  listenFd : List Int
  streamFd : List Int
  deriving DecidableEq, Repr

/-- `ApiConfig::default()` -/
def Api.default : Api := ⟨[], [], []⟩

/-- api/config.rs:50-52 `count_api_sources` -/
def Api.count (a : Api) : Nat := a.listenPath.length + a.listenFd.length + a.streamFd.length

/-- api/config.rs:55-57 `has_api_sources` -/
def Api.hasSources (a : Api) : Bool := decide (a.count > 0)

/-- config.rs:38-75 `Rosenpass` -/
structure Config (Addr : Type) where
  keypair : Option (String × String)
  listen : List Addr
  verbose : Bool
  peers : List Peer
  api : Api

/-- config.rs:531-544 `State` -/
inductive St where
  | own | ownPublicKey | ownSecretKey | ownListen
  | peer | peerPsk | peerPublicKey | peerEndpoint | peerOutfile | peerWgDev | peerWgPeer | peerWgExtra
  deriving DecidableEq, Repr

/-- how parsing stops early -/
inductive Stop where
  | refused
  | panic
  deriving DecidableEq, Repr

/-- config.rs:528-553: the variables of the loop. `set` is the hash set `already_set`; the key pair is kept as its two
paths, since it is `Some` throughout (528). -/
structure M (Addr : Type) where
  pk : String
  sk : String
  listen : List Addr
  verbose : Bool
  peers : List Peer
  set : List St
  st : St
  cur : Option Peer

/-- 528-550: the start of the loop -/
def M.init {Addr : Type} : M Addr := ⟨"", "", [], false, [], [], .own, none⟩

/-- `HashSet::insert` inside `ensure!` -/
def once {Addr : Type} (m : M Addr) (s : St) (f : M Addr) : Except Stop (M Addr) :=
  if s ∈ m.set then .error .refused else .ok { f with set := s :: m.set }

/-- config.rs:554-701: one iteration of the loop. -/
def M.step {Addr : Type} (resolve : String → Option (List Addr)) (m : M Addr) (arg : String) : Except Stop (M Addr) :=
  match m.st, m.cur with
  -- 556-586
  | .own, none =>
    if arg = "public-key" then .ok { m with st := .ownPublicKey }
    else if arg = "secret-key" then .ok { m with st := .ownSecretKey }
    else if arg = "private-key" then .ok { m with st := .ownSecretKey }
    else if arg = "listen" then .ok { m with st := .ownListen }
    else if arg = "verbose" then .ok { m with verbose := true }
    else if arg = "peer" then
      if St.ownPublicKey ∉ m.set then .error .refused
      else if St.ownSecretKey ∉ m.set then .error .refused
      else .ok { m with set := [], cur := some .default, st := .peer }
    -- 672-674
    else .error .refused
  -- 587-594
  | .ownPublicKey, none => once m .ownPublicKey { m with pk := arg, st := .own }
  -- 595-602
  | .ownSecretKey, none => once m .ownSecretKey { m with sk := arg, st := .own }
  -- 603-610
  | .ownListen, none =>
    match resolve arg with
    | none => .error .refused
    | some as => .ok { m with set := if St.ownListen ∈ m.set then m.set else .ownListen :: m.set, listen := m.listen ++ as, st := .own }
  -- 611-625
  | .peer, some p =>
    if arg = "peer" then .ok { m with peers := m.peers ++ [p], set := [], cur := some .default, st := .peer }
    else if arg = "public-key" then .ok { m with st := .peerPublicKey }
    else if arg = "endpoint" then .ok { m with st := .peerEndpoint }
    else if arg = "preshared-key" then .ok { m with st := .peerPsk }
    else if arg = "outfile" then .ok { m with st := .peerOutfile }
    else if arg = "wireguard" then .ok { m with st := .peerWgDev }
    -- 679-681
    else .error .refused
  -- 626-633
  | .peerPublicKey, some p => once m .peerPublicKey { m with cur := some { p with publicKey := arg }, st := .peer }
  -- 634-638
  | .peerEndpoint, some p => once m .peerEndpoint { m with cur := some { p with endpoint := some arg }, st := .peer }
  -- 639-643 (this inserts `PeerEndpoint`)
  | .peerPsk, some p => once m .peerEndpoint { m with cur := some { p with psk := some arg }, st := .peer }
  -- 644-651
  | .peerOutfile, some p => once m .peerOutfile { m with cur := some { p with keyOut := some arg }, st := .peer }
  -- 652-664
  | .peerWgDev, some p =>
    if St.peerWgDev ∈ m.set then .error .refused
    else if p.wg.isSome then .error .panic
    else .ok { m with set := .peerWgDev :: m.set, cur := some { p with wg := some ⟨arg, "", []⟩ }, st := .peerWgPeer }
  -- 665-672
  | .peerWgPeer, some p =>
    if St.peerWgPeer ∈ m.set then .error .refused
    else match p.wg with
      | none => .error .panic
      | some w => .ok { m with set := .peerWgPeer :: m.set, cur := some { p with wg := some { w with peer := arg } }, st := .peerWgExtra }
  -- 611, 673-680
  | .peerWgExtra, some p =>
    if arg = "peer" then .ok { m with peers := m.peers ++ [p], set := [], cur := some .default, st := .peer }
    else match p.wg with
      | none => .error .panic
      | some w => .ok { m with cur := some { p with wg := some { w with extra := w.extra ++ [arg] } } }
  -- 683-701
  | _, _ => .error .panic

/-- the loop -/
def M.run {Addr : Type} (resolve : String → Option (List Addr)) (m : M Addr) : List String → Except Stop (M Addr)
  | [] => .ok m
  | a :: as =>
    match m.step resolve a with
    | .error e => .error e
    | .ok m => m.run resolve as

/-- 704-709 -/
def M.finish {Addr : Type} (m : M Addr) : Config Addr :=
  ⟨some (m.pk, m.sk), m.listen, m.verbose, match m.cur with | none => m.peers | some p => m.peers ++ [p], Api.default⟩

/-- config.rs:527-710 `Rosenpass::parse_args` -/
def parseArgs {Addr : Type} (resolve : String → Option (List Addr)) (args : List String) : Except Stop (Config Addr) :=
  match M.init.run resolve args with
  | .error e => .error e
  | .ok m => .ok m.finish

/-! ### validate -/

/-- What `validate` looks at outside the configuration: whether a path is a regular file, whether a public key (`SPk`) or
a secret key (`SSk`) can be loaded from it, whether a name resolves. -/
structure Probe where
  isFile : String → Bool
  spk : String → Bool
  ssk : String → Bool
  resolves : String → Bool

/-- config.rs:193-206 `org_and_label`; `none`: refused -/
def orgAndLabel (p : Peer) : Option (Option (String × List String)) :=
  match p.oskOrg, p.oskLabel with
  | none, none => some none
  | some o, some l => some (some (o, l))
  | some _, none => none
  | none, some _ => none

/-- config.rs:374-420: the checks of one peer -/
def validatePeer (e : Probe) (p : Peer) : Bool :=
  if !e.isFile p.publicKey then false
  else if !e.spk p.publicKey then false
  else if (match p.endpoint with | some a => !e.resolves a | none => false) then false
  else if p.keyOut.isNone && (match p.wg with | some w => w.device == "" || w.peer == "" | none => true) then false
  else match orgAndLabel p with
    | none => false
    | some _ => true

/-- config.rs:345-423 `Rosenpass::validate` -/
def validate {Addr : Type} (e : Probe) (c : Config Addr) : Bool :=
  (match c.keypair with
    | none => true
    | some (pk, sk) =>
      if !e.isFile pk then false
      else if !e.spk pk then false
      else if !e.isFile sk then false
      else if !e.ssk sk then false
      else true) && c.peers.all (validatePeer e)

/-- config.rs:440-453 `check_usefullness` (with the feature `experiment_api`) -/
def checkUsefullness {Addr : Type} (c : Config Addr) : Bool := c.keypair.isSome || c.api.hasSources

end Verif.Config
