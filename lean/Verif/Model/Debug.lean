import Verif.Model.Server
/-
Model of the `Debug` text (`{:?}`) of the values that hold secrets: secret-memory/src/{debug,secret,public}.rs and the derived or written implementations of the types of
rosenpass/src/protocol and wireguard-broker/src/brokers/native_unix.rs.

Simplifications: numbers are printed in decimal (the text of an f64 is not modelled), the opaque text of the time base (an `Instant`) and the text of the hash map of the index
(its order is random) are parameters.
-/
namespace Verif.Dbg

/-- `std::fmt::LowerHex for u8`: no leading zero -/
def lowerHex (b : UInt8) : List Char := Nat.toDigits 16 b.toNat

/-- secret-memory/src/debug.rs:29-46 `debug_crypto_array`, the `Debug` of `Public` and `PublicBox` (public.rs:66-71, 257-262). -/
def cryptoArray (v : Bytes) : List Char :=
  "[{}]=".toList ++
    (if 64 < v.length then (v.take 32).flatMap lowerHex ++ ['…'] ++ (v.drop (v.length - 32)).flatMap lowerHex else v.flatMap lowerHex)

/-- secret-memory/src/secret.rs:279-283 `Debug for Secret`. -/
def secret (_ : Bytes) : List Char := "<SECRET>".toList

/-- text of a number -/
def num (n : Int) : List Char := (toString n).toList

/-- `f.debug_struct(name).field(..)...finish()`, what `derive(Debug)` generates for a struct with named fields -/
def struct (name : String) (fields : List (String × List Char)) : List Char :=
  name.toList ++ " { ".toList ++ (", ".toList).intercalate (fields.map (fun f => f.1.toList ++ ": ".toList ++ f.2)) ++ " }".toList

/-- `f.debug_tuple(name)`, what `derive(Debug)` generates for a tuple struct -/
def tuple (name : String) (fields : List (List Char)) : List Char := name.toList ++ ['('] ++ (", ".toList).intercalate fields ++ [')']

/-- `Debug` of slices, arrays and `Vec` -/
def list (xs : List (List Char)) : List Char := ['['] ++ (", ".toList).intercalate xs ++ [']']

/-- `Debug` of `Option` -/
def opt (x : Option (List Char)) : List Char := match x with | none => "None".toList | some t => tuple "Some" [t]

/-- ciphers/src/subtle/keyed_hash.rs:20-26 `derive(Debug)` of `KeyedHash` (the inner value is a zero-sized tag). -/
def hashChoice : HashChoice → List Char
  | .shake => "KeyedShake256(InferKeyedHash { _phantom_keyed_hasher: PhantomData })".toList
  | .blake => "IncorrectHmacBlake2b(InferKeyedHash { _phantom_keyed_hasher: PhantomData })".toList

/-- ciphers/src/hash_domain.rs:55-56 `derive(Debug)` of `SecretHashDomainNamespace`. -/
def secretDomain (k : Bytes) (h : HashChoice) : List Char := tuple "SecretHashDomainNamespace" [secret k, hashChoice h]

/-- protocol/cookies.rs:68-74 `derive(Debug)` of `CookieStore`. -/
def store (x : Store) : List Char := struct "CookieStore" [("created_at", num x.createdAt), ("value", secret x.value)]

/-- protocol.rs:314-322 `derive(Debug)` of `HandshakeState`. -/
def core (c : Core) : List Char := struct "HandshakeState" [("sidi", cryptoArray c.sidi), ("sidr", cryptoArray c.sidr), ("ck", secretDomain c.ck c.hc)]

/-- protocol.rs:351-358 `derive(Debug)` of `HandshakeStateMachine`. -/
def next : Next → List Char
  | .respHello => "RespHello".toList
  | .respConf => "RespConf".toList

/-- protocol.rs:367-409 `derive(Debug)` of `InitiatorHandshake` (`tx_at` is always 0). -/
def iniHs (x : IniHs) : List Char :=
  struct "InitiatorHandshake" [("created_at", num x.createdAt), ("next", next x.next), ("core", core x.core), ("eski", secret x.eski), ("epki", cryptoArray x.epki), ("tx_at", num 0),
    ("tx_retry_at", num x.txRetryAt), ("tx_count", num x.txCount), ("tx_len", num x.txLen), ("tx_buf", cryptoArray x.txBuf), ("cookie_value", store x.cookieValue)]

/-- protocol.rs:325-331 `derive(Debug)` of `HandshakeRole`. -/
def role : Role → List Char
  | .initiator => "Initiator".toList
  | .responder => "Responder".toList

/-- protocol.rs:543-565 `derive(Debug)` of `Session`. -/
def session (x : Session) : List Char :=
  struct "Session" [("created_at", num x.createdAt), ("sidm", cryptoArray x.sidm), ("sidt", cryptoArray x.sidt), ("handshake_role", role x.role), ("ck", secretDomain x.ck x.hc),
    ("txkm", secret x.txkm), ("txkt", secret x.txkt), ("txnm", num x.txnm), ("txnt", num x.txnt)]

/-- protocol.rs:426-434 `Debug for KnownResponse`. -/
def known (x : Known) : List Char := struct "KnownResponse" [("received_at", num x.receivedAt), ("request_mac", cryptoArray x.requestMac), ("response", "\"...\"".toList)]

/-- protocol.rs:147-151 `derive(Debug)` of `ProtocolVersion`. -/
def version : Version → List Char
  | .v02 => "V02".toList
  | .v03 => "V03".toList

/-- `Debug` of `Vec<u8>` -/
def bytes (b : Bytes) : List Char := list (b.map (fun x => num x.toNat))

/-- osk_domain_separator.rs:28-42 `derive(Debug)` of `OskDomainSeparator`. -/
def osk : OskDomain → List Char
  | .wireguardPsk => "ExtensionWireguardPsk".toList
  | .custom ns ls => struct "Custom" [("namespace", bytes ns), ("labels", list (ls.map bytes))]

/-- `Debug` of `bool` -/
def bool (b : Bool) : List Char := if b then "true".toList else "false".toList

/-- protocol.rs:216-268 `derive(Debug)` of `Peer`. -/
def peer (x : Peer) : List Char :=
  struct "Peer" [("psk", secret x.psk), ("spkt", cryptoArray x.spkt), ("biscuit_used", cryptoArray x.biscuitUsed), ("session", opt (x.session.map session)),
    ("handshake", opt (x.handshake.map iniHs)), ("initiation_requested", bool x.initReq), ("known_init_conf_response", opt (x.known.map known)), ("protocol_version", version x.version),
    ("osk_domain_separator", osk x.osk)]

/-- protocol.rs:82-144 `derive(Debug)` of `CryptoServer`, with 483-486 `KnownResponseHasher`. `timebase` and `index` give the text of these fields. -/
def server (timebase : List Char) (index : Index → List Char) (s : Server) : List Char :=
  struct "CryptoServer" [("timebase", timebase), ("sskm", secret s.sskm), ("spkm", cryptoArray s.spkm), ("biscuit_ctr", cryptoArray s.biscuitCtr),
    ("biscuit_keys", list [store s.biscuitKeys.a, store s.biscuitKeys.b]), ("peers", list (s.peers.map peer)), ("index", index s.index),
    ("known_response_hasher", struct "KnownResponseHasher" [("key", secret s.knownKey)]), ("peer_poll_off", num s.pollOff),
    ("cookie_secrets", list [store s.cookieSecrets.a, store s.cookieSecrets.b])]

/-- native_unix.rs:276-289 `derive(Debug)` of `NativeUnixBrokerConfig` (the fields: interface, peer id, psk, further parameters, each string as Rust would quote it). -/
def brokerConfig (iface : List Char) (peerId psk : Bytes) (extra : List (List Char)) : List Char :=
  struct "NativeUnixBrokerConfig" [("interface", iface), ("peer_id", cryptoArray peerId), ("psk", secret psk), ("extra_params", list extra)]

end Verif.Dbg
