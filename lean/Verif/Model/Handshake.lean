import Verif.Model.Server
/-
Model of the handshake computations and message handlers of
rosenpass/src/protocol/protocol.rs (lines 1856-2365 and 2967-4158).

Each handler that mixes verification and state changes is split, in source order, into a
pure verification part (`…Verify`) and the commit part that follows it.
-/
namespace Verif
open HashDomain

namespace Core

/-- protocol.rs:3141-3147 `HandshakeState::zero`. -/
def zero (h : HashChoice) : Core :=
  { sidi := List.replicate 4 0, sidr := List.replicate 4 0, ck := zero32, hc := h }

/-- protocol.rs:3150-3152 `erase`. -/
def erase (c : Core) : Core := { c with ck := zero32 }

/-- protocol.rs:3156-3162 `init`. -/
def init (C : Crypto) (c : Core) (spkr : Bytes) : Core :=
  { c with ck := HashDomain.mix C c.hc (dom C c.hc .ckinit) spkr }

/-- protocol.rs:3166-3173 `mix`. -/
def mix (C : Crypto) (c : Core) (a : Bytes) : Core :=
  { c with ck := HashDomain.mix C c.hc (HashDomain.mix C c.hc c.ck (dom C c.hc .mix)) a }

/-- protocol.rs:3178-3181, 3192-3195: the key derived for one encryption. -/
def encKey (C : Crypto) (c : Core) : Bytes := HashDomain.mix C c.hc c.ck (dom C c.hc .hsEnc)

/-- `[0u8; 12]`, protocol.rs:3183, 3197. -/
def nonce0 : Bytes := List.replicate 12 0

/-- protocol.rs:3177-3185 `encrypt_and_mix`: ciphertext and new state. -/
def encryptAndMix (C : Crypto) (c : Core) (pt : Bytes) : Bytes × Core :=
  let ct := C.aeadEnc (c.encKey C) nonce0 [] pt
  (ct, c.mix C ct)

/-- protocol.rs:3191-3199 `decrypt_and_mix`: plaintext and new state; `none` is the AEAD error. -/
def decryptAndMix (C : Crypto) (c : Core) (ct : Bytes) : Option (Bytes × Core) :=
  match C.aeadDec (c.encKey C) nonce0 [] ct with
  | none => none
  | some pt => some (pt, c.mix C ct)

/-- protocol.rs:3261, 3283: `mix(pk).mix(shk).mix(ct)`. -/
def mixKem (C : Crypto) (c : Core) (pk shk ct : Bytes) : Core :=
  ((c.mix C pk).mix C shk).mix C ct

/-- protocol.rs:3416-3446 `enter_live`. -/
def enterLive (C : Crypto) (c : Core) (now : Time) (role : Role) (h : HashChoice) : Session :=
  let tki := HashDomain.mix C c.hc c.ck (dom C h .iniEnc)
  let tkr := HashDomain.mix C c.hc c.ck (dom C h .resEnc)
  match role with
  | .initiator =>
    { createdAt := now, sidm := c.sidi, sidt := c.sidr, role := role, ck := c.ck, hc := c.hc,
      txkm := tki, txkt := tkr, txnm := 0, txnt := 0 }
  | .responder =>
    { createdAt := now, sidm := c.sidr, sidt := c.sidi, role := role, ck := c.ck, hc := c.hc,
      txkm := tkr, txkt := tki, txnm := 0, txnt := 0 }

end Core

/-- protocol.rs:3335-3339, 3374-3378: additional data of a biscuit. -/
def biscuitAd (C : Crypto) (h : HashChoice) (spkm sidi sidr : Bytes) : Bytes :=
  HashDomain.mix C h (HashDomain.mix C h (HashDomain.mix C h (dom C h .biscuitAd) spkm) sidi) sidr

/-- protocol.rs:3351-3352: bit 7 of the first nonce byte selects the biscuit key. -/
def biscuitNonce (n : Bytes) (key : Bool) : Bytes :=
  match n with
  | [] => []
  | b :: bs => ((b &&& 0x7F) ||| (if key then 0x80 else 0)) :: bs

/-- protocol.rs:3371: the key index encoded in a biscuit. -/
def biscuitKeyBit (ct : Bytes) : Bool := (ct.headD 0) &&& 0x80 ≠ 0

namespace Server

/-- protocol.rs:3312-3360 `store_biscuit`: biscuit ciphertext, handshake state, server. -/
def storeBiscuit (C : Crypto) (s : Server) (now : Time) (r : Rnd) (c : Core) (peer : Peer) :
    Bytes × Core × Server :=
  let pt : Biscuit := { pidi := pidt C peer, biscuitNo := s.biscuitCtr, ck := c.ck }
  let ad := biscuitAd C peer.version.hash s.spkm c.sidi c.sidr
  let s1 := { s with biscuitCtr := ConstantTime.increment s.biscuitCtr }
  let (bk, s2) := s1.activeBiscuitKey now r.bkey
  let n := biscuitNonce r.nonce bk
  let ct := C.xSeal (s2.biscuitKeys.get bk).value n ad pt.encode
  (ct, c.mix C ct, s2)

/-- protocol.rs:3363-3409 `load_biscuit`. -/
def loadBiscuit (C : Crypto) (s : Server) (ct sidi sidr : Bytes) (h : HashChoice) :
    Except Err (Nat × Bytes × Core) :=
  let bk := biscuitKeyBit ct
  let ad := biscuitAd C h s.spkm sidi sidr
  match C.xOpen (s.biscuitKeys.get bk).value ad ct with
  | none => .error .decrypt
  | some pt =>
    let b := Biscuit.decode pt
    match s.findPeer b.pidi with
    | none => .error .noPeer
    | some p =>
      match s.peers[p]? with
      | none => .error .panic
      | some peer =>
        let c : Core := { sidi := sidi, sidr := sidr, ck := b.ck, hc := peer.version.hash }
        .ok (p, b.biscuitNo, c.mix C ct)

/-! ### Sealing -/

/-- protocol.rs:3081-3084, 3110-3112: MAC of an envelope for receiver key `spk`. -/
def macOf (C : Crypto) (h : HashChoice) (spk : Bytes) (e : Env) : Bytes :=
  (HashDomain.mix C h (HashDomain.mix C h (dom C h .mac) spk) e.toMac).take 16

/-- protocol.rs:3094-3098: cookie of an envelope under a cookie value (always SHAKE256). -/
def cookieOf (C : Crypto) (value : Bytes) (e : Env) : Bytes :=
  (HashDomain.mix C .shake (HashDomain.mix C .shake (dom C .shake .cookie) value) e.toCookie).take 16

/-- protocol.rs:3092-3101 `seal_cookie`. -/
def sealCookie (C : Crypto) (peer : Peer) (e : Env) : Env :=
  match peer.handshake with
  | none => e
  | some hs => { e with cookie := cookieOf C hs.cookieValue.value e }

/-- protocol.rs:2354-2364 `seal_and_commit_msg` with 3080-3087 `seal`. -/
def sealMsg (C : Crypto) (peer : Peer) (t : MsgType) (e : Env) : Env :=
  let e := { e with msgType := t.toU8 }
  let e := { e with mac := macOf C peer.version.hash peer.spkt e }
  sealCookie C peer e

/-- protocol.rs:3109-3117 `check_seal`. -/
def checkSeal (C : Crypto) (s : Server) (h : HashChoice) (e : Env) : Bool :=
  ConstantTime.memcmp e.mac (macOf C h s.spkm e)

/-- protocol/zerocopy.rs:10-15 `truncating_cast_into`: slicing `buf[..size]` panics when the
buffer is too short. The payload of the view is overwritten by every handler. -/
def castTx (n : Nat) (tx : Bytes) : Option Env :=
  if tx.length < Env.size n then none else some (Env.view n (tx.take (Env.size n)))

/-! ### Retransmission -/

/-- util/src/mem.rs `cpy_min`: copy as much of `src` as fits over the start of `dst`. -/
def cpyMin (src dst : Bytes) : Bytes := src.take dst.length ++ dst.drop src.length

/-- protocol.rs:3038-3044: base delay in ticks, `0.5 s · 2^min(log2 20, count)`. -/
def retransmitBase (count : Nat) : Nat := if count ≤ 4 then 5000 * 2 ^ count else 100000

/-- protocol.rs:3038-3046: delay with jitter, `base · 0.5 · (u + 1)`, rounded down to a tick. -/
def retransmitDelay (count jit : Nat) : Nat :=
  retransmitBase count / 2 + (retransmitBase count / 2 * jit) / 2 ^ 53

/-- protocol.rs:3031-3049 `register_retransmission` on the handshake record. -/
def regRetransmit (now : Time) (jit : Nat) (hs : IniHs) : IniHs :=
  { hs with txRetryAt := now + (retransmitDelay hs.txCount jit : Int), txCount := hs.txCount + 1 }

/-- update of the handshake of peer `p` -/
def modHs (s : Server) (p : Nat) (f : IniHs → IniHs) : Server :=
  s.modPeer p (fun q => { q with handshake := q.handshake.map f })

/-- protocol.rs:2991-3001 `store_msg_for_retransmission`. -/
def storeMsg (s : Server) (p : Nat) (now : Time) (jit : Nat) (msg : Bytes) :
    Except Err Unit × Server :=
  match s.handshake p with
  | none => (.error .noHandshake, s)
  | some _ =>
    (.ok (), s.modHs p (fun hs =>
      regRetransmit now jit { hs with txBuf := cpyMin msg hs.txBuf, txCount := 0, txLen := msg.length }))

/-- protocol.rs:3011-3028 `apply_retransmission` = 2977-2979 `retransmit_handshake`.
The result is `tx_buf[..len]`, the bytes the caller sends. -/
def retransmit (C : Crypto) (s : Server) (p : Nat) (tx : Bytes) : Except Err Bytes × Server :=
  match s.peers[p]? with
  | none => (.error .panic, s)
  | some peer =>
    match peer.handshake with
    | none => (.error .noHandshake, s)
    | some hs =>
      if hs.txBuf.length < hs.txLen then (.error .panic, s)
      else
        let tx := cpyMin (hs.txBuf.take hs.txLen) tx
        match castTx (InitHello.size C) tx with
        | none => (.error .panic, s)
        | some e =>
          let e := sealCookie C peer e
          let tx := e.encode ++ tx.drop (Env.size (InitHello.size C))
          (.ok (tx.take hs.txLen), s)

/-! ### Handlers -/

/-- protocol.rs:3549-3637: the pure part of `handle_initiation` (IHI1–IHI8).
`none`: liboqs panic. -/
def initiation (C : Crypto) (s : Server) (peer : Peer) (now : Time) (r : Rnd) :
    Option (InitHello × IniHs) :=
  let h := peer.version.hash
  let c := (Core.zero h).init C peer.spkt
  let c := { c with sidi := r.sid }
  match C.eKeygen r.kcoins with
  | none => none
  | some (eski, epki) =>
    let c := (c.mix C r.sid).mix C epki
    match C.sEncaps r.scoins peer.spkt with
    | none => none
    | some (shk, sctr) =>
      let c := c.mixKem C peer.spkt shk sctr
      let (pidiCt, c) := c.encryptAndMix C (s.pidm C h)
      let c := (c.mix C s.spkm).mix C peer.psk
      let (auth, c) := c.encryptAndMix C []
      some ({ sidi := r.sid, epki := epki, sctr := sctr, pidiCt := pidiCt, auth := auth },
        { createdAt := now, next := .respHello, core := c, eski := eski, epki := epki,
          txRetryAt := 0, txCount := 0, txLen := 0, txBuf := List.replicate 2500 0,
          cookieValue := newStore r.cookie })

/-- protocol.rs:3539-3642 `handle_initiation`. -/
def handleInitiation (C : Crypto) (s : Server) (p : Nat) (now : Time) (r : Rnd) :
    Except Err InitHello × Server :=
  match s.peers[p]? with
  | none => (.error .panic, s)
  | some peer =>
    match s.initiation C peer now r with
    | none => (.error .panic, s)
    | some (ih, hs) =>
      match s.hsInsert p hs with
      | none => (.error .sidInUse, s)
      | some s1 => (.ok ih, s1)

/-- protocol.rs:1905-1921 `initiate_handshake`. The result is `tx_buf[..len]`. -/
def initiate (C : Crypto) (s : Server) (p : Nat) (now : Time) (r : Rnd) (tx : Bytes) :
    Except Err Bytes × Server :=
  match castTx (InitHello.size C) tx with
  | none => (.error .panic, s)
  | some e =>
    match s.handleInitiation C p now r with
    | (.error x, s1) => (.error x, s1)
    | (.ok ih, s1) =>
      match s1.peers[p]? with
      | none => (.error .panic, s1)
      | some peer =>
        let e := sealMsg C peer .initHello { e with payload := ih.encode }
        match s1.storeMsg p now r.jit e.encode with
        | (.error x, s2) => (.error x, s2)
        | (.ok (), s2) => (.ok e.encode, s2)

/-- protocol.rs:3676-3733: verification part of `handle_init_hello` (IHR1–IHR8).
Result: peer and handshake state. -/
def ihrVerify (C : Crypto) (s : Server) (ih : InitHello) (h : HashChoice) :
    Except Err (Nat × Core) :=
  let c := { (Core.zero h).init C s.spkm with sidi := ih.sidi }
  let c := (c.mix C ih.sidi).mix C ih.epki
  match C.sDecaps s.sskm ih.sctr with
  | none => .error .panic
  | some shk =>
    let c := c.mixKem C s.spkm shk ih.sctr
    match c.decryptAndMix C ih.pidiCt with
    | none => .error .decrypt
    | some (pid, c) =>
      match s.findPeer pid with
      | none => .error .noPeer
      | some p =>
        match s.peers[p]? with
        | none => .error .panic
        | some peer =>
          let c := (c.mix C peer.spkt).mix C peer.psk
          match c.decryptAndMix C ih.auth with
          | none => .error .decrypt
          | some (_, c) => .ok (p, c)

/-- protocol.rs:3735-3799: answering part of `handle_init_hello` (RHR1–RHR7). -/
def rhr (C : Crypto) (s : Server) (ih : InitHello) (p : Nat) (peer : Peer) (c : Core) (now : Time)
    (r : Rnd) : Except Err (Nat × RespHello) × Server :=
  let c := { c with sidr := r.sid }
  let c := (c.mix C c.sidr).mix C c.sidi
  match C.eEncaps r.ecoins ih.epki with
  | none => (.error .panic, s)
  | some (eshk, ecti) =>
    let c := c.mixKem C ih.epki eshk ecti
    match C.sEncaps r.scoins peer.spkt with
    | none => (.error .panic, s)
    | some (sshk, scti) =>
      let c := c.mixKem C peer.spkt sshk scti
      let (bct, c, s1) := s.storeBiscuit C now r c peer
      let (auth, _c) := c.encryptAndMix C []
      (.ok (p, { sidr := r.sid, sidi := ih.sidi, ecti := ecti, scti := scti,
                 auth := auth, biscuitCt := bct }), s1)

/-- protocol.rs:3665-3799 `handle_init_hello`. -/
def handleInitHello (C : Crypto) (s : Server) (ih : InitHello) (h : HashChoice) (now : Time)
    (r : Rnd) : Except Err (Nat × RespHello) × Server :=
  match s.ihrVerify C ih h with
  | .error e => (.error e, s)
  | .ok (p, c) =>
    match s.peers[p]? with
    | none => (.error .panic, s)
    | some peer => s.rhr C ih p peer c now r

/-- protocol.rs:3806-3894: verification part of `handle_resp_hello` (RHI1–RHI7, ICI3–ICI4).
Result: peer, handshake state, InitConf payload. -/
def rhiVerify (C : Crypto) (s : Server) (rh : RespHello) : Except Err (Nat × Core × InitConf) :=
  match s.lookupHandshake rh.sidi with
  | none => .error .noHandshake
  | some p =>
    match s.handshake p with
    | none => .error .panic
    | some hs =>
      if hs.next ≠ .respHello then .error .unexpected
      else
        let c := { hs.core with sidr := rh.sidr }
        let c := (c.mix C rh.sidr).mix C rh.sidi
        match C.eDecaps hs.eski rh.ecti with
        | none => .error .panic
        | some eshk =>
          let c := c.mixKem C hs.epki eshk rh.ecti
          match C.sDecaps s.sskm rh.scti with
          | none => .error .panic
          | some sshk =>
            let c := c.mixKem C s.spkm sshk rh.scti
            let c := c.mix C rh.biscuitCt
            match c.decryptAndMix C rh.auth with
            | none => .error .decrypt
            | some (_, c) =>
              let c := (c.mix C rh.sidi).mix C rh.sidr
              let (auth, c) := c.encryptAndMix C []
              .ok (p, c, { sidi := rh.sidi, sidr := rh.sidr, biscuitCt := rh.biscuitCt, auth := auth })

/-- protocol.rs:3803-3915 `handle_resp_hello`. -/
def handleRespHello (C : Crypto) (s : Server) (rh : RespHello) (now : Time) :
    Except Err (Nat × InitConf) × Server :=
  match s.rhiVerify C rh with
  | .error e => (.error e, s)
  | .ok (p, c, ic) =>
    match s.peers[p]? with
    | none => (.error .panic, s)
    | some peer =>
      match s.sessInsert p (c.enterLive C now .initiator peer.version.hash) with
      | (.error e, s1) => (.error e, s1)
      | (.ok (), s1) =>
        (.ok (p, ic), s1.modHs p (fun hs => { hs with core := hs.core.erase, next := .respConf }))

/-- protocol.rs:3931-3965: verification part of `handle_init_conf` (ICR1–ICR5).
Result: peer, biscuit number, handshake state. -/
def icrVerify (C : Crypto) (s : Server) (ic : InitConf) (h : HashChoice) :
    Except Err (Nat × Bytes × Core) :=
  match s.loadBiscuit C ic.biscuitCt ic.sidi ic.sidr h with
  | .error e => .error e
  | .ok (p, no, c) =>
    let (_tag, c) := c.encryptAndMix C []
    let c := (c.mix C ic.sidi).mix C ic.sidr
    match c.decryptAndMix C ic.auth with
    | none => .error .decrypt
    | some (_, c) =>
      match s.peers[p]? with
      | none => .error .panic
      | some peer =>
        match ConstantTime.compare no peer.biscuitUsed with
        | none => .error .panic
        | some o => if o > 0 then .ok (p, no, c) else .error .outdated

/-- protocol.rs:4019 `cat!(NONCE_LEN; &ctr, &[0; 4])`. -/
def txNonce (ctr : Bytes) : Bytes := ctr ++ List.replicate 4 0

/-- protocol.rs:4015-4021: the EmptyData acknowledgement of a session. -/
def ackOf (C : Crypto) (ses : Session) : EmptyData :=
  let ctr := toLE 8 ses.txnm
  { sid := ses.sidt, ctr := ctr, auth := C.aeadEnc ses.txkm (txNonce ctr) [] [] }

/-- protocol.rs:3922-4024 `handle_init_conf`. -/
def handleInitConf (C : Crypto) (s : Server) (ic : InitConf) (h : HashChoice) (now : Time) :
    Except Err (Nat × EmptyData) × Server :=
  match s.icrVerify C ic h with
  | .error e => (.error e, s)
  | .ok (p, no, c) =>
    match s.peers[p]? with
    | none => (.error .panic, s)
    | some peer =>
      let s1 := s.modPeer p (fun q => { q with biscuitUsed := no })
      match s1.sessInsert p (c.enterLive C now .responder peer.version.hash) with
      | (.error e, s2) => (.error e, s2)
      | (.ok (), s2) =>
        let s3 := s2.hsTake p
        match s3.session p with
        | none => (.error .noSession, s3)
        | some ses =>
          (.ok (p, ackOf C ses),
           s3.modPeer p (fun q => { q with session := q.session.map (fun x => { x with txnm := x.txnm + 1 }) }))

/-- protocol.rs:4030-4083 `handle_resp_conf`. -/
def handleRespConf (C : Crypto) (s : Server) (e : Env) : Except Err Nat × Server :=
  let rc := EmptyData.decode e.payload
  match s.lookupHandshake rc.sid with
  | none => (.error .noHandshake, s)
  | some p =>
    match s.peers[p]? with
    | none => (.error .panic, s)
    | some peer =>
      if !s.checkSeal C peer.version.hash e then (.error .sealBroken, s)
      else if (peer.handshake.map (·.next)) ≠ some .respConf then (.error .unexpected, s)
      else
        match peer.session with
        | none => (.error .noSession, s)
        | some ses =>
          let n := leNat rc.ctr
          if n < ses.txnt then (.error .stale, s)
          else
            let s1 := s.modPeer p (fun q => { q with session := some { ses with txnt := n } })
            match C.aeadDec ses.txkt (txNonce rc.ctr) [] rc.auth with
            | none => (.error .decrypt, s1)
            | some _ => (.ok p, s1.hsTake p)

/-- protocol.rs:4104-4129: MAC of the last message stored in a handshake. -/
def lastMac (C : Crypto) (hs : IniHs) : Except Err Bytes :=
  match MsgType.ofU8 (hs.txBuf.headD 0) with
  | some .initHello =>
    match castTx (InitHello.size C) hs.txBuf with
    | none => .error .panic
    | some e => .ok e.mac
  | some .initConf =>
    match castTx InitConf.size hs.txBuf with
    | none => .error .panic
    | some e => .ok e.mac
  | _ => .error .noMsg

/-- protocol.rs:4131-4134, 2085-2087: key that protects cookie replies of the holder of `spk`. -/
def cookieKey (C : Crypto) (spk : Bytes) : Bytes :=
  HashDomain.mix C .shake (dom C .shake .cookieKey) spk

/-- protocol.rs:4091-4099: the peer a cookie reply is for: by session, then by handshake. -/
def cookieReplyPeer (s : Server) (sid : Bytes) : Option Nat :=
  match s.lookupSession sid with
  | some p => some p
  | none => s.lookupHandshake sid

/-- protocol.rs:4090-4157 `handle_cookie_reply`. `update_mut` (978-992) stamps the store, and the
AEAD copies the ciphertext into the output buffer before it checks the tag
(xchacha20poly1305_ietf.rs:66), so a forged reply overwrites the stored value. -/
def handleCookieReply (C : Crypto) (s : Server) (cr : CookieReply) (now : Time) :
    Except Err Nat × Server :=
  match s.cookieReplyPeer cr.sid with
  | none => (.error .noPeer, s)
  | some p =>
    match s.peers[p]? with
    | none => (.error .panic, s)
    | some peer =>
      match peer.handshake with
      | none => (.error .noMsg, s)
      | some hs =>
        match lastMac C hs with
        | .error e => (.error e, s)
        | .ok mac =>
          match C.xOpen (cookieKey C peer.spkt) mac cr.cookieEncrypted with
          | none =>
            (.error .decrypt, s.modHs p (fun h =>
              { h with cookieValue := { createdAt := now, value := (cr.cookieEncrypted.drop 24).take 16 } }))
          | some v =>
            (.ok p, s.modHs p (fun h =>
              { h with cookieValue := { createdAt := now, value := v }, txRetryAt := now,
                       txCount := h.txCount + 1 }))

/-- protocol.rs:1926-1940 `HandleMsgResult`; `resp` holds the bytes `tx_buf[..len]`. -/
structure MsgResult where
  exchanged : Option Nat
  resp : Option Bytes
  deriving DecidableEq, Repr, Inhabited

/-- protocol.rs:2330-2341 `verify_hash_choice_match`. -/
def hashChoiceMatches (peer : Peer) (h : HashChoice) : Bool := peer.version.hash = h

/-- protocol.rs:2213-2220: end of the `InitHello` arm, once a peer was identified with hash `h`. -/
def helloFinish (C : Crypto) (e out : Env) (h : HashChoice) (p : Nat) (rh : RespHello) (s : Server) :
    Except Err MsgResult × Server :=
  match s.peers[p]? with
  | none => (.error .panic, s)
  | some peer =>
    if !hashChoiceMatches peer h then (.error .hashMismatch, s)
    else if !s.checkSeal C h e then (.error .sealBroken, s)
    else
      (.ok { exchanged := none,
             resp := some (sealMsg C peer .respHello { out with payload := rh.encode }).encode }, s)

/-- protocol.rs:2188-2221: the `InitHello` arm of `handle_msg`. A panic in the first attempt
unwinds and does not start the second one. -/
def msgInitHello (C : Crypto) (s : Server) (e out : Env) (now : Time) (r : HashChoice → Rnd) :
    Except Err MsgResult × Server :=
  let ih := InitHello.decode C e.payload
  match s.handleInitHello C ih .shake now (r .shake) with
  | (.ok (p, rh), s1) => helloFinish C e out .shake p rh s1
  | (.error x, s1) =>
    if x = .panic then (.error .panic, s1)
    else
      match s1.handleInitHello C ih .blake now (r .blake) with
      | (.ok (p, rh), s2) => helloFinish C e out .blake p rh s2
      | (.error y, s2) => (.error (if y = .panic then .panic else .noHash), s2)

/-- protocol.rs:2222-2238: the `RespHello` arm. -/
def msgRespHello (C : Crypto) (s : Server) (e : Env) (tx : Bytes) (now : Time) (r : Rnd) :
    Except Err MsgResult × Server :=
  match castTx InitConf.size tx with
  | none => (.error .panic, s)
  | some out =>
    match s.handleRespHello C (RespHello.decode C e.payload) now with
    | (.error x, s1) => (.error x, s1)
    | (.ok (p, ic), s1) =>
      match s1.peers[p]? with
      | none => (.error .panic, s1)
      | some peer =>
        if !s1.checkSeal C peer.version.hash e then (.error .sealBroken, s1)
        else
          let out := sealMsg C peer .initConf { out with payload := ic.encode }
          match s1.storeMsg p now r.jit out.encode with
          | (.error x, s2) => (.error x, s2)
          | (.ok (), s2) => (.ok { exchanged := some p, resp := some out.encode }, s2)

/-- protocol.rs:2285-2303: end of the uncached `InitConf` path, once a peer was identified with
hash `h`: checks, caching of the response, sealing. -/
def confFinish (C : Crypto) (e out : Env) (now : Time) (h : HashChoice) (p : Nat) (rc : EmptyData)
    (s : Server) : Except Err MsgResult × Server :=
  match s.peers[p]? with
  | none => (.error .panic, s)
  | some peer =>
    if !hashChoiceMatches peer h then (.error .hashMismatch, s)
    else if !s.checkSeal C h e then (.error .sealBroken, s)
    else
      let out := { out with payload := rc.encode }
      match s.knownInsert p { receivedAt := now, requestMac := s.knownHash C e, response := out } with
      | none => (.error .panic, s)
      | some s2 =>
        match s2.peers[p]? with
        | none => (.error .panic, s2)
        | some peer =>
          (.ok { exchanged := some p, resp := some (sealMsg C peer .emptyData out).encode }, s2)

/-- protocol.rs:2265-2301: the uncached `InitConf` path, up to `seal_and_commit_msg`. -/
def msgInitConfFresh (C : Crypto) (s : Server) (e out : Env) (now : Time) :
    Except Err MsgResult × Server :=
  let ic := InitConf.decode e.payload
  match s.handleInitConf C ic .shake now with
  | (.ok (p, rc), s1) => confFinish C e out now .shake p rc s1
  | (.error x, s1) =>
    if x = .panic then (.error .panic, s1)
    else
      match s1.handleInitConf C ic .blake now with
      | (.ok (p, rc), s2) => confFinish C e out now .blake p rc s2
      | (.error y, s2) => (.error (if y = .panic then .panic else .noHash), s2)

/-- protocol.rs:2239-2306: the `InitConf` arm. -/
def msgInitConf (C : Crypto) (s : Server) (e : Env) (tx : Bytes) (now : Time) :
    Except Err MsgResult × Server :=
  match castTx EmptyData.size tx with
  | none => (.error .panic, s)
  | some out =>
    match s.index (.known (s.knownHash C e)) with
    | some p =>
      match s.peers[p]? with
      | none => (.error .panic, s)
      | some peer =>
        if !s.checkSeal C peer.version.hash e then (.error .sealBroken, s)
        else
          match peer.known with
          | none => (.error .panic, s)
          | some k =>
            (.ok { exchanged := none, resp := some (sealMsg C peer .emptyData k.response).encode }, s)
    | none => s.msgInitConfFresh C e out now

/-- protocol.rs:2169-2326 `handle_msg`. `r` gives the randomness of each attempt (InitHello may be
processed twice, once per hash choice). -/
def handleMsg (C : Crypto) (s : Server) (rx tx : Bytes) (now : Time) (r : HashChoice → Rnd) :
    Except Err MsgResult × Server :=
  match rx with
  | [] => (.error .emptyMsg, s)
  | b :: _ =>
    match MsgType.ofU8 b with
    | none => (.error .badType, s)
    | some t =>
      match castTx (RespHello.size C) tx with
      | none => (.error .panic, s)
      | some out =>
        match t with
        | .initHello =>
          match Env.decode (InitHello.size C) rx with
          | none => (.error .badSize, s)
          | some e => s.msgInitHello C e out now r
        | .respHello =>
          match Env.decode (RespHello.size C) rx with
          | none => (.error .badSize, s)
          | some e => s.msgRespHello C e tx now (r .shake)
        | .initConf =>
          match Env.decode InitConf.size rx with
          | none => (.error .badSize, s)
          | some e => s.msgInitConf C e tx now
        | .emptyData =>
          match Env.decode EmptyData.size rx with
          | none => (.error .badSize, s)
          | some e =>
            match s.handleRespConf C e with
            | (.error x, s1) => (.error x, s1)
            | (.ok _, s1) => (.ok { exchanged := none, resp := none }, s1)
        | .cookieReply =>
          match CookieReply.decode C rx with
          | none => (.error .badSize, s)
          | some cr =>
            match s.handleCookieReply C cr now with
            | (.error x, s1) => (.error x, s1)
            | (.ok _, s1) => (.ok { exchanged := none, resp := none }, s1)

/-- protocol.rs:2030-2036: cookie value for a host under a cookie secret. -/
def cookieValueFor (C : Crypto) (secret host : Bytes) : Bytes :=
  (HashDomain.mix C .shake (HashDomain.mix C .shake (dom C .shake .cookieValue) secret) host).take 16

/-- protocol.rs:2027-2071: the loop over the usable secrets: does some secret validate the cookie? -/
def cookieValid (C : Crypto) (s : Server) (ids : List Bool) (host : Bytes) (e : Env) : Bool :=
  ids.any (fun i =>
    ConstantTime.memcmp e.cookie (cookieOf C (cookieValueFor C (s.cookieSecrets.get i).value host) e))

/-- protocol.rs:2084-2117: the cookie reply to an InitHello envelope. -/
def cookieReplyTo (C : Crypto) (s : Server) (value : Bytes) (e : Env) (tx : Bytes) (r : Rnd) :
    CookieReply where
  msgType := MsgType.cookieReply.toU8
  reserved := (tx.drop 1).take 3
  sid := (InitHello.decode C e.payload).sidi
  cookieEncrypted := C.xSeal (cookieKey C s.spkm) r.nonce e.mac value
  padding := r.pad

/-- protocol.rs:1993-2118 `handle_msg_under_load` (feature `experiment_cookie_dos_mitigation`).
`ids` is never empty, so the `break`/`None` and "No active cookie value" paths collapse. -/
def handleMsgUnderLoad (C : Crypto) (s : Server) (rx tx host : Bytes) (now : Time)
    (r : HashChoice → Rnd) : Except Err MsgResult × Server :=
  match rx with
  | [] => (.error .emptyMsg, s)
  | b :: _ =>
    match MsgType.ofU8 b with
    | some .initConf => s.handleMsg C rx tx now r
    | some .initHello =>
      let (ids, s1) := s.activeCookieSecrets now (r .shake).csecret
      match ids with
      | [] => (.error .noCookie, s1)
      | i :: _ =>
        match Env.decode (InitHello.size C) rx with
        | none => (.error .badSize, s1)
        | some e =>
          if s1.cookieValid C ids host e then s1.handleMsg C rx tx now r
          else if tx.length < CookieReply.size C then (.error .panic, s1)
          else
            let value := cookieValueFor C (s1.cookieSecrets.get i).value host
            (.ok { exchanged := none,
                   resp := some (s1.cookieReplyTo C value e tx (r .shake)).encode }, s1)
    | _ => (.error .notUnderLoad, s)

/-- protocol.rs:3453-3465 `osk_with_compressed_domain_separator`. -/
def oskWith (C : Crypto) (s : Server) (p : Nat) (sep : Bytes) : Except Err Bytes :=
  match s.peers[p]? with
  | none => .error .panic
  | some peer =>
    match peer.session with
    | none => .error .noSession
    | some ses => .ok (HashDomain.mix C ses.hc ses.ck sep)

/-- protocol.rs:3470-3478 `osk_with_domain_separator`. -/
def oskFor (C : Crypto) (s : Server) (p : Nat) (d : OskDomain) : Except Err Bytes :=
  match s.peers[p]? with
  | none => .error .panic
  | some peer => s.oskWith C p (d.compress C peer.version.hash)

/-- protocol.rs:3498-3505 `osk`. -/
def osk (C : Crypto) (s : Server) (p : Nat) : Except Err Bytes :=
  match s.peers[p]? with
  | none => .error .panic
  | some peer => s.oskWith C p (peer.osk.compress C peer.version.hash)

end Server
end Verif
