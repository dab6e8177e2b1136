import Verif.Model.Crypto
/-
Specification taken from the white paper, papers/whitepaper.md and its figures
papers/graphics/rosenpass-wp-message-handling-code.svg (steps IHI1 … ICR7) and
papers/graphics/rosenpass-wp-message-types.svg (order of the fields on the wire).

Nothing here refers to the model of the Rust code: only the primitives of `Crypto` are shared. Values
the paper draws at random, and what the KEMs return, are arguments.
-/
namespace Verif.Paper

/-- whitepaper.md:297, 311, 423-429, …: a string literal as bytes. -/
def str (s : String) : Bytes := s.toUTF8.data.toList

/-- whitepaper.md:294-306: the protocol identifier of each hash function. -/
def PROTOCOL : HashChoice → Bytes
  | .blake => str "Rosenpass v1 mceliece460896 Kyber512 ChaChaPoly1305 BLAKE2s"
  | .shake => str "Rosenpass v1 mceliece460896 Kyber512 ChaChaPoly1305 SHAKE256"

variable (C : Crypto) (h : HashChoice)

/-- whitepaper.md:70-81 `hash(key, data)` and 854-871 for the "incorrect HMAC" with BLAKE2b. -/
def hash (key data : Bytes) : Bytes :=
  match h with
  | .shake => C.shake256 (key ++ data)
  | .blake => C.blake2b (key.map (fun b => b ^^^ 0x5C)) (C.blake2b (key.map (fun b => b ^^^ 0x36)) data)

/-- whitepaper.md:319: `hash` with variadic parameters. -/
def hashes (key : Bytes) : List Bytes → Bytes
  | [] => key
  | d :: ds => hashes (hash C h key d) ds

/-- whitepaper.md:320 `lhash(a…) = hash(hash(0, PROTOCOL), a…)`. -/
def lhash (ds : List Bytes) : Bytes := hashes C h (hash C h (List.replicate 32 0) (PROTOCOL h)) ds

/-- whitepaper.md:423-425 `extract_key`. -/
def extractKey (ck : Bytes) (ls : List Bytes) : Bytes := hash C h ck (lhash C h (str "chaining key extract" :: ls))

/-- whitepaper.md:427-429 `export_key`. -/
def exportKey (ck : Bytes) (ls : List Bytes) : Bytes := extractKey C h ck (str "user" :: ls)

/-- whitepaper.md:434-443 `mix`, variadic; the result is the new chaining key. -/
def mix (ck : Bytes) : List Bytes → Bytes
  | [] => ck
  | d :: ds => mix (hash C h (extractKey C h ck [str "mix"]) d) ds

/-- whitepaper.md:448-455 `encrypt_and_mix`: ciphertext and new chaining key. -/
def encryptAndMix (ck pt : Bytes) : Bytes × Bytes :=
  let ct := C.aeadEnc (extractKey C h ck [str "handshake encryption"]) (List.replicate 12 0) [] pt
  (ct, mix C h ck [ct])

/-- whitepaper.md:457-464 `decrypt_and_mix`: plaintext and new chaining key. -/
def decryptAndMix (ck ct : Bytes) : Option (Bytes × Bytes) :=
  match C.aeadDec (extractKey C h ck [str "handshake encryption"]) (List.replicate 12 0) [] ct with
  | none => none
  | some pt => some (pt, mix C h ck [ct])

/-- whitepaper.md:492 the peer ID of the holder of a public key, `lhash("peer id", spk)`. -/
def peerId (spk : Bytes) : Bytes := lhash C h [str "peer id", spk]

/-! ### InitHello -/

/-- message-types figure: the contents of InitHello in the order on the wire. -/
structure InitHello where
  sidi : Bytes
  epki : Bytes
  sctr : Bytes
  pidiC : Bytes
  auth : Bytes

/-- the payload on the wire -/
def InitHello.wire (m : InitHello) : Bytes := m.sidi ++ m.epki ++ m.sctr ++ m.pidiC ++ m.auth

/-- The chaining key both sides hold before `pidi` is transmitted: steps IHI1–IHI5 and IHR1–IHR5. -/
def helloKey (spkr sidi epki shk sctr : Bytes) : Bytes :=
  mix C h (mix C h (lhash C h [str "chaining key init", spkr]) [sidi, epki]) [spkr, shk, sctr]

/-- IHI1–IHI8. `shk`, `sctr`: result of encapsulating for `spkr`. Message and chaining key. -/
def IHI (spkr spki psk sidi epki shk sctr : Bytes) : InitHello × Bytes :=
  let ck := helloKey C h spkr sidi epki shk sctr
  let (pidiC, ck) := encryptAndMix C h ck (peerId C h spki)
  let ck := mix C h ck [spki, psk]
  let (auth, ck) := encryptAndMix C h ck []
  ({ sidi := sidi, epki := epki, sctr := sctr, pidiC := pidiC, auth := auth }, ck)

/-- IHR1–IHR6 up to the peer ID: what the responder finds out about the sender. -/
def IHRid (spkr shk : Bytes) (m : InitHello) : Option (Bytes × Bytes) :=
  decryptAndMix C h (helloKey C h spkr m.sidi m.epki shk m.sctr) m.pidiC

/-- IHR7–IHR8, once `lookup_peer` has given `spki` and `psk`: the new chaining key. -/
def IHRauth (spki psk ck : Bytes) (m : InitHello) : Option Bytes :=
  (decryptAndMix C h (mix C h ck [spki, psk]) m.auth).map Prod.snd

/-! ### RespHello -/

/-- message-types figure: the contents of RespHello in the order on the wire. -/
structure RespHello where
  sidr : Bytes
  sidi : Bytes
  ecti : Bytes
  scti : Bytes
  auth : Bytes
  biscuitCt : Bytes

/-- the payload on the wire -/
def RespHello.wire (m : RespHello) : Bytes := m.sidr ++ m.sidi ++ m.ecti ++ m.scti ++ m.auth ++ m.biscuitCt

/-- The chaining key both sides hold before the biscuit: RHR3–RHR5 and RHI3–RHI5. -/
def respKey (ck sidr sidi epki eshk ecti spki sshk scti : Bytes) : Bytes :=
  mix C h (mix C h (mix C h ck [sidr, sidi]) [epki, eshk, ecti]) [spki, sshk, scti]

/-- whitepaper.md:496-498, 514-516: additional data of a biscuit. -/
def biscuitAd (spkr sidi sidr : Bytes) : Bytes := lhash C h [str "biscuit additional data", spkr, sidi, sidr]

/-- whitepaper.md:491-500 the biscuit: nonce, then the encryption of `pidi`, number and chaining key. -/
def biscuit (key nonce spki no ck spkr sidi sidr : Bytes) : Bytes :=
  nonce ++ C.xEnc key nonce (biscuitAd C h spkr sidi sidr) (peerId C h spki ++ no ++ ck)

/-- RHR1–RHR7 with `store_biscuit`. Message and chaining key. -/
def RHR (ck spkr spki sidi sidr epki eshk ecti sshk scti bkey nonce no : Bytes) : RespHello × Bytes :=
  let ck := respKey C h ck sidr sidi epki eshk ecti spki sshk scti
  let bct := biscuit C h bkey nonce spki no ck spkr sidi sidr
  let ck := mix C h ck [bct]
  let (auth, ck) := encryptAndMix C h ck []
  ({ sidr := sidr, sidi := sidi, ecti := ecti, scti := scti, auth := auth, biscuitCt := bct }, ck)

/-- RHI3–RHI7: the initiator's chaining key after RespHello, if the message is authentic. -/
def RHI (ck epki spki eshk sshk : Bytes) (m : RespHello) : Option Bytes :=
  let ck := respKey C h ck m.sidr m.sidi epki eshk m.ecti spki sshk m.scti
  (decryptAndMix C h (mix C h ck [m.biscuitCt]) m.auth).map Prod.snd

/-! ### InitConf -/

/-- message-types figure: the contents of InitConf in the order on the wire. -/
structure InitConf where
  sidi : Bytes
  sidr : Bytes
  biscuitCt : Bytes
  auth : Bytes

/-- the payload on the wire -/
def InitConf.wire (m : InitConf) : Bytes := m.sidi ++ m.sidr ++ m.biscuitCt ++ m.auth

/-- ICI3–ICI4: message and final chaining key. -/
def ICI (ck sidi sidr bct : Bytes) : InitConf × Bytes :=
  let (auth, ck) := encryptAndMix C h (mix C h ck [sidi, sidr]) []
  ({ sidi := sidi, sidr := sidr, biscuitCt := bct, auth := auth }, ck)

/-- whitepaper.md:510-537 `load_biscuit`: the opened biscuit (`pidi`, number, chaining key). -/
def openBiscuit (key spkr : Bytes) (m : InitConf) : Option (Bytes × Bytes × Bytes) :=
  match C.xDec key (m.biscuitCt.take 24) (biscuitAd C h spkr m.sidi m.sidr) (m.biscuitCt.drop 24) with
  | none => none
  | some pt => some (pt.take 32, (pt.drop 32).take 12, pt.drop 44)

/-- ICR1 `mix(biscuit_ct)`, ICR2–ICR4 from the chaining key in the biscuit: the final chaining key. -/
def ICR (bck : Bytes) (m : InitConf) : Option Bytes :=
  let ck := mix C h bck [m.biscuitCt]
  let ck := (encryptAndMix C h ck []).2
  (decryptAndMix C h (mix C h ck [m.sidi, m.sidr]) m.auth).map Prod.snd

/-! ### After the handshake -/

/-- whitepaper.md:547-556 `enter_live` with the labels of whitepaper.md:273: the initiator's key. -/
def txki (ck : Bytes) : Bytes := extractKey C h ck [str "initiator handshake encryption"]

/-- the responder's key -/
def txkr (ck : Bytes) : Bytes := extractKey C h ck [str "responder handshake encryption"]

/-- the label `enter_live` itself gives for the responder's key, whitepaper.md:549 -/
def txkrPayload (ck : Bytes) : Bytes := extractKey C h ck [str "responder payload encryption"]

/-- whitepaper.md:737-743, 786: the WireGuard key. -/
def osk (ck : Bytes) : Bytes := exportKey C h ck [str "rosenpass.eu", str "wireguard psk"]

/-- message-types figure: EmptyData, here the first one the responder sends: session ID of the
initiator, counter 0, tag. -/
def emptyData (key sidi : Bytes) : Bytes :=
  sidi ++ List.replicate 8 0 ++ C.aeadEnc key (List.replicate 12 0) [] []

/-! ### Envelope -/

/-- whitepaper.md:617-620 `mac = lhash("mac", spkt, MAC_WIRE_DATA)[0..16]`. -/
def mac (spkt data : Bytes) : Bytes := (lhash C h [str "mac", spkt, data]).take 16

/-- whitepaper.md:628-637 the cookie field, under a cookie value (SHAKE256). -/
def cookie (value data : Bytes) : Bytes := (lhash C .shake [str "cookie", value, data]).take 16

/-- message-types figure: type, three reserved bytes and payload; then `mac` for the receiver and 16
bytes of `cookie`. `m` is such a packet. -/
def Packet (spkt : Bytes) (type : UInt8) (payload m : Bytes) : Prop :=
  ∃ rsvd cookie, rsvd.length = 3 ∧ cookie.length = 16 ∧
    m = ([type] ++ rsvd ++ payload) ++ mac C h spkt ([type] ++ rsvd ++ payload) ++ cookie

/-- whitepaper.md:606, 610 `cookie_value` (SHAKE256). -/
def cookieValue (secret host : Bytes) : Bytes := (lhash C .shake [str "cookie-value", secret, host]).take 16

/-- whitepaper.md:607 `cookie_encrypted` with its nonce in front. -/
def cookieEncrypted (spkm nonce value macPeer : Bytes) : Bytes :=
  nonce ++ C.xEnc (lhash C .shake [str "cookie-key", spkm]) nonce macPeer value

end Verif.Paper
