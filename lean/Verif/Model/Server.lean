import Verif.Model.HashDomain
import Verif.Model.Msgs
/-
Model of the state of `CryptoServer` (rosenpass/src/protocol/protocol.rs) and of the
operations on its index, its timers and its secret stores.

Simplifications, all recorded in DESIGN.md:
* `Timing` (f64 seconds) is `Int` ticks of 100 µs; one call reads the clock once (`now`).
* randomness is an explicit argument of each call;
* `HashMap<PeerIndexKey, PeerNo>` is a partial function;
* an operation returns `Except Err α × Server`, so effects before an error are kept.
-/
namespace Verif

/-- Why a call failed. `panic` is a Rust panic; the others are `Err(..)` values. -/
inductive Err where
  | panic
  | emptyMsg | badType | badSize | sealBroken | hashMismatch | noHash
  | noPeer | noHandshake | unexpected | decrypt | stale | outdated | sidInUse
  | noSession | noMsg | peerExists | notUnderLoad | noCookie
  deriving DecidableEq, Repr, Inhabited

instance {ε α} [DecidableEq ε] [DecidableEq α] : DecidableEq (Except ε α)
  | .ok a, .ok b => if h : a = b then isTrue (by rw [h]) else isFalse (by simp [h])
  | .error a, .error b => if h : a = b then isTrue (by rw [h]) else isFalse (by simp [h])
  | .ok _, .error _ => isFalse (by simp)
  | .error _, .ok _ => isFalse (by simp)

/-! ### Time (protocol/timing.rs, protocol/constants.rs), in ticks of 100 µs -/

/-- timing.rs `Timing`. -/
abbrev Time := Int

/-- one second -/
def secs (n : Int) : Time := n * 10000
/-- constants.rs `EVENT_GRACE` = 0.0025 s. -/
def eventGrace : Time := 25
/-- timing.rs `BCE` = -3600·24·356·10000 s. -/
def bce : Time := secs (-3600 * 24 * 356 * 10000)
/-- timing.rs `UNENDING` = 8 h. -/
def unending : Time := secs (3600 * 8)
/-- constants.rs `REKEY_AFTER_TIME_RESPONDER`. -/
def rekeyAfterResponder : Time := secs 120
/-- constants.rs `REKEY_AFTER_TIME_INITIATOR`. -/
def rekeyAfterInitiator : Time := secs 130
/-- constants.rs `REJECT_AFTER_TIME`. -/
def rejectAfter : Time := secs 180
/-- constants.rs `COOKIE_SECRET_EPOCH`. -/
def cookieSecretEpoch : Time := secs 120
/-- constants.rs `PEER_COOKIE_VALUE_EPOCH`. -/
def peerCookieValueEpoch : Time := secs 120
/-- constants.rs `BISCUIT_EPOCH`. -/
def biscuitEpoch : Time := secs 300

/-- timing.rs `has_happened`: `(ev - now) < EVENT_GRACE`. -/
def hasHappened (ev now : Time) : Bool := ev - now < eventGrace

/-! ### State -/

/-- protocol.rs:148-151 `ProtocolVersion`. -/
inductive Version where
  | v02 | v03
  deriving DecidableEq, Repr, Inhabited

/-- protocol.rs:155-160 `ProtocolVersion::keyed_hash`. -/
def Version.hash : Version → HashChoice
  | .v02 => .blake
  | .v03 => .shake

/-- protocol.rs:326-331 `HandshakeRole`. -/
inductive Role where
  | initiator | responder
  deriving DecidableEq, Repr, Inhabited

/-- protocol.rs:352-358 `HandshakeStateMachine`. -/
inductive Next where
  | respHello | respConf
  deriving DecidableEq, Repr, Inhabited

/-- protocol/cookies.rs:69-74 `CookieStore<N>`. -/
structure Store where
  createdAt : Time
  value : Bytes
  deriving DecidableEq, Repr, Inhabited

/-- protocol.rs:315-322 `HandshakeState`; the chaining key carries its hash choice. -/
structure Core where
  sidi : Bytes
  sidr : Bytes
  ck : Bytes
  hc : HashChoice
  deriving DecidableEq, Repr, Inhabited

/-- protocol.rs:368-409 `InitiatorHandshake` (`tx_at` is never read and is omitted). -/
structure IniHs where
  createdAt : Time
  next : Next
  core : Core
  eski : Bytes
  epki : Bytes
  txRetryAt : Time
  txCount : Nat
  txLen : Nat
  txBuf : Bytes
  cookieValue : Store
  deriving DecidableEq, Repr, Inhabited

/-- protocol.rs:544-565 `Session`. -/
structure Session where
  createdAt : Time
  sidm : Bytes
  sidt : Bytes
  role : Role
  ck : Bytes
  hc : HashChoice
  txkm : Bytes
  txkt : Bytes
  txnm : Nat
  txnt : Nat
  deriving DecidableEq, Repr, Inhabited

/-- protocol.rs:416-424 `KnownResponse<EmptyData>`. -/
structure Known where
  receivedAt : Time
  requestMac : Bytes
  response : Env
  deriving DecidableEq, Repr, Inhabited

/-- protocol.rs:217-268 `Peer`. -/
structure Peer where
  psk : Bytes
  spkt : Bytes
  biscuitUsed : Bytes
  session : Option Session
  handshake : Option IniHs
  initReq : Bool
  known : Option Known
  version : Version
  osk : OskDomain
  deriving DecidableEq, Repr, Inhabited

/-- protocol/index.rs:21-45 `PeerIndexKey`. -/
inductive PKey where
  | peer (pid : Bytes)
  | sid (sid : Bytes)
  | known (h : Bytes)
  deriving DecidableEq, Repr, Inhabited

/-- protocol/index.rs:16 `PeerIndex = HashMap<PeerIndexKey, PeerNo>`. -/
abbrev Index := PKey → Option Nat

/-- `HashMap::insert` / `remove`. -/
def Index.set (ix : Index) (k : PKey) (v : Option Nat) : Index :=
  fun k' => if k' = k then v else ix k'

/-- A two-element array indexed by a bit (`[BiscuitKey; 2]`, `[CookieSecret; 2]`). -/
structure Two where
  a : Store
  b : Store
  deriving DecidableEq, Repr, Inhabited

/-- array read; `false` is index 0 -/
def Two.get (t : Two) (i : Bool) : Store := if i then t.b else t.a
/-- array write -/
def Two.set (t : Two) (i : Bool) (s : Store) : Two := if i then { t with b := s } else { t with a := s }

/-- protocol.rs:83-144 `CryptoServer` (without the clock). -/
structure Server where
  sskm : Bytes
  spkm : Bytes
  biscuitCtr : Bytes
  biscuitKeys : Two
  peers : List Peer
  index : Index
  knownKey : Bytes
  pollOff : Nat
  cookieSecrets : Two
  deriving Inhabited

/-- Random values a call may draw. -/
structure Rnd where
  /-- `SessionId::randomize` -/
  sid : Bytes
  /-- coins of `EphemeralKem::keygen` -/
  kcoins : Bytes
  /-- coins of `EphemeralKem::encaps` -/
  ecoins : Bytes
  /-- coins of `StaticKem::encaps` -/
  scoins : Bytes
  /-- `XAEADNonce::random` -/
  nonce : Bytes
  /-- fresh biscuit key (`CookieStore::<32>::randomize`) -/
  bkey : Bytes
  /-- fresh cookie secret (`CookieStore::<16>::randomize`) -/
  csecret : Bytes
  /-- initial random cookie value of a handshake (`CookieStore::<16>::new`) -/
  cookie : Bytes
  /-- padding of a cookie reply -/
  pad : Bytes
  /-- `rand::random::<f64>()` = `jit` / 2^53 -/
  jit : Nat
  deriving DecidableEq, Repr, Inhabited

/-- sizes of the random values -/
structure Rnd.WF (C : Crypto) (r : Rnd) : Prop where
  sid : r.sid.length = 4
  nonce : r.nonce.length = 24
  bkey : r.bkey.length = 32
  csecret : r.csecret.length = 16
  cookie : r.cookie.length = 16
  pad : r.pad.length = CookieReply.padLen C
  jit : r.jit < 2 ^ 53

open HashDomain

namespace Server

/-- protocol.rs:1557-1563 `CookieStore::new`: random value, created "before the common era". -/
def newStore (v : Bytes) : Store := { createdAt := bce, value := v }

/-- protocol.rs:1187-1203 `CryptoServer::new`. `rnd` supplies the five random values. -/
def new (sk pk : Bytes) (b0 b1 c0 c1 kk : Bytes) : Server where
  sskm := sk
  spkm := pk
  biscuitCtr := [1, 0, 0, 0, 0, 0, 0, 0, 0, 0, 0, 0]
  biscuitKeys := { a := newStore b0, b := newStore b1 }
  peers := []
  index := fun _ => none
  knownKey := kk
  pollOff := 0
  cookieSecrets := { a := newStore c0, b := newStore c1 }

/-- `PeerPtr::get_mut` + assignment (protocol.rs:744-746); out of range is handled by callers. -/
def modPeer (s : Server) (p : Nat) (f : Peer → Peer) : Server :=
  { s with peers := s.peers.modify p f }

/-- protocol.rs:1217-1222 `pidm`. -/
def pidm (C : Crypto) (s : Server) (h : HashChoice) : Bytes := mix C h (dom C h .peerid) s.spkm

/-- protocol.rs:1511-1516 `Peer::pidt`. -/
def pidt (C : Crypto) (p : Peer) : Bytes :=
  mix C p.version.hash (dom C p.version.hash .peerid) p.spkt

/-- protocol.rs:1267-1277 the record `add_peer` creates. -/
def freshPeer (psk : Option Bytes) (pk : Bytes) (v : Version) (osk : OskDomain) : Peer where
  psk := psk.getD zero32
  spkt := pk
  biscuitUsed := List.replicate 12 0
  session := none
  handshake := none
  initReq := false
  known := none
  version := v
  osk := osk

/-- protocol.rs:1260-1289 `add_peer`. -/
def addPeer (C : Crypto) (s : Server) (psk : Option Bytes) (pk : Bytes) (v : Version)
    (osk : OskDomain) : Except Err Nat × Server :=
  let peer := freshPeer psk pk v osk
  let pid := pidt C peer
  match s.index (.peer pid) with
  | some _ => (.error .peerExists, s)
  | none =>
    (.ok s.peers.length,
     { s with index := s.index.set (.peer pid) (some s.peers.length), peers := s.peers ++ [peer] })

/-- protocol.rs:1303-1312 `register_session`; `none` is "id is in use". -/
def registerSession (s : Server) (id : Bytes) (p : Nat) : Option Server :=
  match s.index (.sid id) with
  | some q => if q = p then some s else none
  | none => some { s with index := s.index.set (.sid id) (some p) }

/-- protocol.rs:1322-1324 `unregister_session`. -/
def unregisterSession (s : Server) (id : Bytes) : Server :=
  { s with index := s.index.set (.sid id) none }

/-- the session of a peer, `SessionPtr::get` protocol.rs:870-872 -/
def session (s : Server) (p : Nat) : Option Session := s.peers[p]?.bind (·.session)

/-- the handshake of a peer, `IniHsPtr::get` protocol.rs:795-797 -/
def handshake (s : Server) (p : Nat) : Option IniHs := s.peers[p]?.bind (·.handshake)

/-- the cached response of a peer, `KnownInitConfResponsePtr::get` protocol.rs:1010-1012 -/
def known (s : Server) (p : Nat) : Option Known := s.peers[p]?.bind (·.known)

/-- protocol.rs:1339-1345 `unregister_session_if_vacant`. -/
def unregisterIfVacant (s : Server) (id : Bytes) (p : Nat) : Server :=
  if ((s.session p).map (·.sidm)) = some id then s
  else if ((s.handshake p).map (·.core.sidi)) = some id then s
  else s.unregisterSession id

/-- protocol.rs:851-857 `IniHsPtr::take`. -/
def hsTake (s : Server) (p : Nat) : Server :=
  match s.handshake p with
  | none => s
  | some stale =>
    (s.modPeer p (fun q => { q with handshake := none })).unregisterIfVacant stale.core.sidi p

/-- protocol.rs:833-842 `IniHsPtr::insert`; `none` is the failed registration (no effect). -/
def hsInsert (s : Server) (p : Nat) (hs : IniHs) : Option Server :=
  match s.registerSession hs.core.sidi p with
  | none => none
  | some s1 =>
    some ((s1.hsTake p).modPeer p (fun q => { q with initReq := false, handshake := some hs }))

/-- protocol.rs:917-923 `SessionPtr::take`. -/
def sessTake (s : Server) (p : Nat) : Server :=
  match s.session p with
  | none => s
  | some stale =>
    (s.modPeer p (fun q => { q with session := none })).unregisterIfVacant stale.sidm p

/-- protocol.rs:904-908 `SessionPtr::insert`: the old session is taken before the registration
that may fail. -/
def sessInsert (s : Server) (p : Nat) (ses : Session) : Except Err Unit × Server :=
  let s1 := s.sessTake p
  match s1.registerSession ses.sidm p with
  | none => (.error .sidInUse, s1)
  | some s2 => (.ok (), s2.modPeer p (fun q => { q with session := some ses }))

/-- protocol.rs:1034-1040 `KnownInitConfResponsePtr::remove`; `none` is the `unwrap` panic. -/
def knownRemove (s : Server) (p : Nat) : Option Server :=
  match s.known p with
  | none => some s
  | some v =>
    match s.index (.known v.requestMac) with
    | none => none
    | some _ =>
      some { (s.modPeer p (fun q => { q with known := none })) with
             index := s.index.set (.known v.requestMac) none }

/-- protocol.rs:1053-1082 `KnownInitConfResponsePtr::insert`. -/
def knownInsert (s : Server) (p : Nat) (v : Known) : Option Server :=
  match s.knownRemove p with
  | none => none
  | some s1 =>
    some { (s1.modPeer p (fun q => { q with known := some v })) with
           index := s1.index.set (.known v.requestMac) (some p) }

/-- protocol.rs:511-523 `KnownResponseHasher::hash` (always SHAKE256), via 1148-1153. -/
def knownHash (C : Crypto) (s : Server) (req : Env) : Bytes :=
  (C.hash .shake s.knownKey req.toCookie).take 16

/-- protocol.rs:1351-1355 `find_peer`. -/
def findPeer (s : Server) (pid : Bytes) : Option Nat := s.index (.peer pid)

/-- protocol.rs:1360-1371 `lookup_handshake`. (An index entry out of range would be a panic in
Rust; the index invariant rules it out, theorem `index_in_range`.) -/
def lookupHandshake (s : Server) (id : Bytes) : Option Nat :=
  match s.index (.sid id) with
  | none => none
  | some p => if (s.handshake p).map (·.core.sidi) = some id then some p else none

/-- protocol.rs:1376-1386 `lookup_session`. -/
def lookupSession (s : Server) (id : Bytes) : Option Nat :=
  match s.index (.sid id) with
  | none => none
  | some p => if (s.session p).map (·.sidm) = some id then some p else none

/-! ### Lifecycle -/
end Server

/-- protocol.rs:574-591 `Lifecycle`. -/
inductive Lifecycle where
  | void | dead | retired | young
  deriving DecidableEq, Repr, Inhabited

/-- What a `Mortal` reports (protocol.rs:598-617): creation, retirement and death. -/
structure Mortal where
  retireAt : Option Time
  dieAt : Option Time

namespace Mortal
/-- protocol.rs:1836-1838 `life_left`. -/
def lifeLeft (m : Mortal) (now : Time) : Option Time := m.dieAt.map (· - now)
/-- protocol.rs:1840-1842 `youth_left`. -/
def youthLeft (m : Mortal) (now : Time) : Option Time := m.retireAt.map (· - now)
/-- protocol.rs:1844-1851 `lifecycle`. -/
def lifecycle (m : Mortal) (now : Time) : Lifecycle :=
  match m.youthLeft now, m.lifeLeft now with
  | y, some t =>
    if hasHappened t 0 then .dead
    else match y with
      | some u => if hasHappened u 0 then .retired else .young
      | none => .void
  | some u, none => if hasHappened u 0 then .retired else .void
  | none, none => .void
end Mortal

/-- protocol.rs:1611-1626 `Mortal for IniHsPtr`. -/
def IniHs.mortal (h : Option IniHs) : Mortal where
  retireAt := h.map (fun x => x.createdAt + rejectAfter)
  dieAt := h.map (fun x => x.createdAt + rejectAfter)

/-- protocol.rs:1645-1648: rekey time by role. -/
def rekeyAfter : Role → Time
  | .initiator => rekeyAfterInitiator
  | .responder => rekeyAfterResponder

/-- protocol.rs:1628-1657 `Mortal for SessionPtr`. -/
def Session.mortal (x : Option Session) : Mortal where
  retireAt := x.map (fun p => p.createdAt + rekeyAfter p.role)
  dieAt := x.map (fun p => p.createdAt + rejectAfter)

/-- protocol.rs:1661-1664, 1679-1682: `created_at` of a store, `None` before the epoch. -/
def Store.created (x : Store) : Option Time := if x.createdAt < 0 then none else some x.createdAt

/-- protocol.rs:1659-1675 `Mortal for BiscuitKeyPtr`. -/
def Store.biscuitMortal (x : Store) : Mortal where
  retireAt := x.created.map (· + biscuitEpoch)
  dieAt := x.created.map (· + biscuitEpoch + biscuitEpoch)

/-- protocol.rs:1677-1693 `Mortal for ServerCookieSecretPtr`. -/
def Store.cookieMortal (x : Store) : Mortal where
  retireAt := x.created.map (· + cookieSecretEpoch)
  dieAt := x.created.map (· + cookieSecretEpoch + cookieSecretEpoch)

/-- protocol.rs:1719-1735 `Mortal for KnownInitConfResponsePtr`. -/
def Known.mortal (x : Option Known) : Mortal :=
  let c := x.bind (fun k => if k.receivedAt < 0 then none else some k.receivedAt)
  { retireAt := c.map (· + rekeyAfterResponder), dieAt := c.map (· + rekeyAfterResponder) }

namespace Server

/-- protocol.rs:1416-1438 `active_biscuit_key`: index of the key to use and the new state. -/
def activeBiscuitKey (s : Server) (now : Time) (fresh : Bytes) : Bool × Server :=
  let t := s.biscuitKeys.a.createdAt
  let u := s.biscuitKeys.b.createdAt
  let r := if t ≥ u then false else true
  if (s.biscuitKeys.get r).biscuitMortal.lifecycle now = .young then (r, s)
  else
    let r := if t < u then false else true
    (r, { s with biscuitKeys := s.biscuitKeys.set r { createdAt := now, value := fresh } })

/-- protocol.rs:1455, 1461: usable cookie secret. -/
def cookieUsable (x : Store) (now : Time) : Bool :=
  x.cookieMortal.lifecycle now = .young || x.cookieMortal.lifecycle now = .retired

/-- protocol.rs:1447-1474 `active_or_retired_cookie_secrets`: the usable secrets, youngest first
(the array with its trailing `None`s cut off). -/
def activeCookieSecrets (s : Server) (now : Time) (fresh : Bytes) : List Bool × Server :=
  let t := s.cookieSecrets.a.createdAt
  let u := s.cookieSecrets.b.createdAt
  let young := if t ≥ u then false else true
  let old := !young
  let l := (if cookieUsable (s.cookieSecrets.get young) now then [young] else []) ++
           (if cookieUsable (s.cookieSecrets.get old) now then [old] else [])
  if l = [] then
    ([old], { s with cookieSecrets := s.cookieSecrets.set old { createdAt := now, value := fresh } })
  else (l, s)

end Server
end Verif
