import Verif.Model.Handshake
/-
A symbolic ("Dolev-Yao") model of the handshake of rosenpass/src/protocol/protocol.rs: the same computations as in
Model/Handshake.lean, over terms instead of bytes, run by any number of servers and sessions over a network that the
attacker controls. Values are terms of a free algebra: two values are equal only if they were computed in the same way, a
ciphertext is opened only with its key, and a KEM's shared secret is known only from the coins or the secret key. (The
functions here are tied to those of Model/Handshake.lean, for all lawful primitives, in Thm/SymbolicLink.lean.)

Simplifications: no envelopes (the MAC is computed from public values; the cookie mechanism uses separate keys and no key
material); lengths are not checked; any peer entry, biscuit key or earlier handshake of a server may be used at any time,
so that there are no timeouts, retransmissions or session limits. Each of these only adds behaviour.
-/
namespace Verif.Sym
open HashDomain (Purpose)

/-- What a random value is used for: protocol.rs:3563 `sidi` and 3745 `sidr`; 3571 `eski`/`epki`; 3261 coins of encapsulations
to the static key of the other side (`StaticKem::encaps`); 3261 coins of the encapsulation to the ephemeral key; 3352 nonce
of a biscuit. -/
inductive Kind where
  | sid | kcoins | scoins | ecoins | nonce
  deriving DecidableEq, Repr

/-- Atomic values: the static secret key of a server, pre-shared keys, the `k`-th biscuit key of a server, the random values drawn
by the `pos`-th event of a run, and values of the attacker. -/
inductive Name where
  | ssk (a : Nat)
  | psk (n : Nat)
  | bkey (b k : Nat)
  | rnd (pos : Nat) (k : Kind)
  | adv (n : Nat)
  deriving DecidableEq, Repr

/-- Values. -/
inductive Term where
  | const (b : Bytes)
  | name (n : Name)
  /-- static public key of a secret key; ephemeral public key of the coins of its generation -/
  | spk (sk : Term)
  | epk (r : Term)
  /-- keyed hash -/
  | hash (h : HashChoice) (k d : Term)
  /-- ChaCha20Poly1305 ciphertext; XChaCha20Poly1305 ciphertext with the nonce in front -/
  | aead (k n ad pt : Term)
  | xaead (k n ad pt : Term)
  /-- a nonce that carries the number of the biscuit key -/
  | bnonce (n : Term) (bit : Bool)
  /-- static KEM: ciphertext and shared secret of an encapsulation, result of decapsulating something else -/
  | sct (r pk : Term)
  | sss (r pk : Term)
  | srej (sk ct : Term)
  /-- ephemeral KEM -/
  | ect (r pk : Term)
  | ess (r pk : Term)
  | erej (r ct : Term)
  /-- contents of a biscuit -/
  | bis (pid no ck : Term)
  deriving DecidableEq

open Term

/-- oqs/src/kem_macro.rs:84-95 `StaticKem::decaps`. -/
def sdec (sk : Term) : Term → Term
  | .sct r (.spk sk') => if sk' = sk then .sss r (.spk sk) else .srej sk (.sct r (.spk sk'))
  | ct => .srej sk ct

/-- oqs/src/kem_macro.rs:84-95 `EphemeralKem::decaps`, for the key generated from coins `r`. -/
def edec (r : Term) : Term → Term
  | .ect r' (.epk r0) => if r0 = r then .ess r' (.epk r) else .erej r (.ect r' (.epk r0))
  | ct => .erej r ct

/-- ciphers/src/hash_domain.rs:102-111 `mix_many`. -/
def mixMany (h : HashChoice) (k : Term) (vs : List Term) : Term := vs.foldl (fun k v => .hash h k v) k

/-- rosenpass/src/hash_domains.rs:111-119 `protocol`. -/
def protocol (h : HashChoice) : Term := .hash h (.const zero32) (.const (HashDomain.protocolLabel h))

/-- rosenpass/src/hash_domains.rs:67-96. -/
def dom (h : HashChoice) (p : Purpose) : Term := mixMany h (protocol h) (p.labels.map .const)

/-- osk_domain_separator.rs:80-90 `compress_with`. -/
def sep (h : HashChoice) : OskDomain → Term
  | .wireguardPsk => dom h .wireguardPsk
  | .custom ns labels => mixMany h (.hash h (dom h .ckeUser) (.const ns)) (labels.map .const)

/-- A configured public key: that of another server, one of the attacker's, or any other bytes. -/
inductive Pk where
  | server (b : Nat)
  | adv (n : Nat)
  | raw (b : Bytes)
  deriving DecidableEq, Repr

def Pk.term : Pk → Term
  | .server b => .spk (.name (.ssk b))
  | .adv n => .spk (.name (.adv n))
  | .raw b => .const b

/-- A configured pre-shared key: a secret one, or fixed bytes (without pre-shared key: zeroes). -/
inductive Psk where
  | secret (n : Nat)
  | raw (b : Bytes)
  deriving DecidableEq, Repr

def Psk.term : Psk → Term
  | .secret n => .name (.psk n)
  | .raw b => .const b

/-- protocol.rs:217-268 `Peer`: the configured part. -/
structure PeerCfg where
  pk : Pk
  psk : Psk
  h : HashChoice
  osk : OskDomain
  deriving DecidableEq

/-- protocol.rs:1511-1516 `Peer::pidt`. -/
def PeerCfg.pid (p : PeerCfg) : Term := .hash p.h (dom p.h .peerid) p.pk.term

/-- the public key of server `a` -/
def own (a : Nat) : Term := .spk (.name (.ssk a))

/-- protocol.rs:3141-3199 `HandshakeState`. -/
structure Core where
  sidi : Term
  sidr : Term
  ck : Term
  hc : HashChoice
  deriving DecidableEq

namespace Core

def zero (h : HashChoice) : Core := ⟨.const (List.replicate 4 0), .const (List.replicate 4 0), .const zero32, h⟩

/-- protocol.rs:3156-3162 `init`. -/
def init (c : Core) (spkr : Term) : Core := { c with ck := .hash c.hc (dom c.hc .ckinit) spkr }

/-- protocol.rs:3166-3173 `mix`. -/
def mix (c : Core) (a : Term) : Core := { c with ck := .hash c.hc (.hash c.hc c.ck (dom c.hc .mix)) a }

/-- protocol.rs:3178-3181. -/
def encKey (c : Core) : Term := .hash c.hc c.ck (dom c.hc .hsEnc)

def nonce0 : Term := .const (List.replicate 12 0)

/-- the empty byte string -/
def empty : Term := .const []

/-- protocol.rs:3177-3185 `encrypt_and_mix`. -/
def encryptAndMix (c : Core) (pt : Term) : Term × Core :=
  let ct := .aead c.encKey nonce0 empty pt
  (ct, c.mix ct)

/-- protocol.rs:3191-3199 `decrypt_and_mix`. -/
def decryptAndMix (c : Core) : Term → Option (Term × Core)
  | .aead k n ad pt => if k = c.encKey ∧ n = nonce0 ∧ ad = empty then some (pt, c.mix (.aead k n ad pt)) else none
  | _ => none

/-- protocol.rs:3261, 3283: `mix(pk).mix(shk).mix(ct)`. -/
def mixKem (c : Core) (pk shk ct : Term) : Core := ((c.mix pk).mix shk).mix ct

end Core

/-- msgs.rs:131-142 `InitHello`. -/
structure IH where
  sidi : Term
  epki : Term
  sctr : Term
  pidiCt : Term
  auth : Term
  deriving DecidableEq

/-- msgs.rs:160-173 `RespHello`. -/
structure RH where
  sidr : Term
  sidi : Term
  ecti : Term
  scti : Term
  auth : Term
  biscuitCt : Term
  deriving DecidableEq

/-- msgs.rs:189-198 `InitConf`. -/
structure IC where
  sidi : Term
  sidr : Term
  biscuitCt : Term
  auth : Term
  deriving DecidableEq

/-- msgs.rs:227-234 `EmptyData`. -/
structure ED where
  sid : Term
  ctr : Term
  auth : Term
  deriving DecidableEq

def IH.terms (m : IH) : List Term := [m.sidi, m.epki, m.sctr, m.pidiCt, m.auth]
def RH.terms (m : RH) : List Term := [m.sidr, m.sidi, m.ecti, m.scti, m.auth, m.biscuitCt]
def IC.terms (m : IC) : List Term := [m.sidi, m.sidr, m.biscuitCt, m.auth]
def ED.terms (m : ED) : List Term := [m.sid, m.ctr, m.auth]

/-- a random value of event `i` -/
abbrev rnd (i : Nat) (k : Kind) : Term := .name (.rnd i k)

/-- protocol.rs:3549-3637 `handle_initiation` (IHI1–IHI8) of server `a` for peer `p`, with the random values of event `i`. -/
def initiation (a : Nat) (p : PeerCfg) (i : Nat) : IH × Core :=
  let c := (Core.zero p.h).init p.pk.term
  let c := { c with sidi := rnd i .sid }
  let epki := .epk (rnd i .kcoins)
  let c := (c.mix (rnd i .sid)).mix epki
  let shk := .sss (rnd i .scoins) p.pk.term
  let sctr := .sct (rnd i .scoins) p.pk.term
  let c := c.mixKem p.pk.term shk sctr
  let x := c.encryptAndMix (.hash p.h (dom p.h .peerid) (own a))
  let c := (x.2.mix (own a)).mix p.psk.term
  let y := c.encryptAndMix Core.empty
  ({ sidi := rnd i .sid, epki := epki, sctr := sctr, pidiCt := x.1, auth := y.1 }, y.2)


/-- protocol.rs:3676-3733: the checks of `handle_init_hello` (IHR1–IHR8) of server `b`, with hash `h`; `p` is the peer whose id
was decrypted. -/
def ihr (b : Nat) (p : PeerCfg) (h : HashChoice) (ih : IH) : Option Core :=
  let c := { (Core.zero h).init (own b) with sidi := ih.sidi }
  let c := (c.mix ih.sidi).mix ih.epki
  let c := c.mixKem (own b) (sdec (.name (.ssk b)) ih.sctr) ih.sctr
  match c.decryptAndMix ih.pidiCt with
  | none => none
  | some (pid, c) =>
    if pid = p.pid then
      let c := (c.mix p.pk.term).mix p.psk.term
      match c.decryptAndMix ih.auth with
      | none => none
      | some (_, c) => some c
    else none

/-- protocol.rs:3335-3339, 3374-3378: additional data of a biscuit. -/
def biscuitAd (h : HashChoice) (spkm sidi sidr : Term) : Term :=
  .hash h (.hash h (.hash h (dom h .biscuitAd) spkm) sidi) sidr

/-- protocol.rs:3735-3799: the answer of `handle_init_hello` (RHR1–RHR7), with the random values of event `i`, the `k`-th biscuit key
stored in place `bit`, and the biscuit number `no`. Also the chaining key that is put into the biscuit. -/
def rhr (b : Nat) (p : PeerCfg) (ih : IH) (c : Core) (i k : Nat) (bit : Bool) (no : Bytes) : RH × Term :=
  let c := { c with sidr := rnd i .sid }
  let c := (c.mix c.sidr).mix c.sidi
  let ecti := .ect (rnd i .ecoins) ih.epki
  let c := c.mixKem ih.epki (.ess (rnd i .ecoins) ih.epki) ecti
  let scti := .sct (rnd i .scoins) p.pk.term
  let c := c.mixKem p.pk.term (.sss (rnd i .scoins) p.pk.term) scti
  let bct := .xaead (.name (.bkey b k)) (.bnonce (rnd i .nonce) bit) (biscuitAd p.h (own b) c.sidi c.sidr) (.bis p.pid (.const no) c.ck)
  let x := (c.mix bct).encryptAndMix Core.empty
  ({ sidr := rnd i .sid, sidi := ih.sidi, ecti := ecti, scti := scti, auth := x.1, biscuitCt := bct }, c.ck)

/-- protocol.rs:3806-3894: `handle_resp_hello` (RHI1–RHI7, ICI3–ICI4) of server `a` for the handshake with `p` that event `i` started. -/
def rhi (a : Nat) (p : PeerCfg) (i : Nat) (rh : RH) : Option (Core × IC) :=
  if rh.sidi ≠ rnd i .sid then none
  else
    let c := { (initiation a p i).2 with sidr := rh.sidr }
    let c := (c.mix rh.sidr).mix rh.sidi
    let c := c.mixKem (.epk (rnd i .kcoins)) (edec (rnd i .kcoins) rh.ecti) rh.ecti
    let c := c.mixKem (own a) (sdec (.name (.ssk a)) rh.scti) rh.scti
    let c := c.mix rh.biscuitCt
    match c.decryptAndMix rh.auth with
    | none => none
    | some (_, c) =>
      let c := (c.mix rh.sidi).mix rh.sidr
      let x := c.encryptAndMix Core.empty
      some (x.2, { sidi := rh.sidi, sidr := rh.sidr, biscuitCt := rh.biscuitCt, auth := x.1 })

/-- protocol.rs:3363-3409 `load_biscuit` of server `b` with its `k`-th biscuit key; `p` is the peer whose id is in the biscuit. -/
def loadBiscuit (b : Nat) (p : PeerCfg) (h : HashChoice) (k : Nat) (ct sidi sidr : Term) : Option Core :=
  match ct with
  | .xaead key n ad (.bis pid no ck) =>
    if key = .name (.bkey b k) ∧ ad = biscuitAd h (own b) sidi sidr ∧ pid = p.pid then
      some (({ sidi := sidi, sidr := sidr, ck := ck, hc := p.h } : Core).mix (.xaead key n ad (.bis pid no ck)))
    else none
  | _ => none

/-- protocol.rs:3931-3965: the checks of `handle_init_conf` (ICR1–ICR5), except for the biscuit number. -/
def icr (b : Nat) (p : PeerCfg) (h : HashChoice) (k : Nat) (ic : IC) : Option Core :=
  match loadBiscuit b p h k ic.biscuitCt ic.sidi ic.sidr with
  | none => none
  | some c =>
    let x := c.encryptAndMix Core.empty
    let c := (x.2.mix ic.sidi).mix ic.sidr
    match c.decryptAndMix ic.auth with
    | none => none
    | some (_, c) => some c

/-- protocol.rs:3416-3446 `enter_live`: the key for messages of the responder. -/
def tkr (c : Core) (p : PeerCfg) : Term := .hash c.hc c.ck (dom p.h .resEnc)

/-- protocol.rs:4015-4021: the EmptyData message that acknowledges InitConf. -/
def ackOf (c : Core) (p : PeerCfg) : ED :=
  { sid := c.sidi, ctr := .const (toLE 8 0), auth := .aead (tkr c p) Core.nonce0 Core.empty Core.empty }

/-- protocol.rs:4030-4083: the check of `handle_resp_conf`. -/
def respConf (c : Core) (p : PeerCfg) (ed : ED) : Prop :=
  ∃ nonce pt, ed.auth = .aead (tkr c p) nonce Core.empty pt

/-- protocol.rs:3498-3505 `osk`: the output key. -/
def osk (c : Core) (p : PeerCfg) : Term := .hash c.hc c.ck (sep p.h p.osk)

/-! ### Runs -/

/-- The servers and the peers they are configured with. No server has two entries with the same peer id (protocol.rs:1279-1283 refuses
that). -/
structure Net where
  cfg : Nat → PeerCfg → Prop
  uniq : ∀ b p q, cfg b p → cfg b q → p.pid = q.pid → p = q

/-- What happens. -/
inductive Ev where
  /-- server `a` starts a handshake with peer `p` and sends InitHello -/
  | init (a : Nat) (p : PeerCfg)
  /-- server `b` receives `ih`, accepts it as coming from `p`, and answers with RespHello -/
  | resp (b : Nat) (p : PeerCfg) (ih : IH) (c : Core) (k : Nat) (bit : Bool) (no : Bytes)
  /-- server `a` receives the answer `rh` to the handshake started in event `i`: it has a session with state `c` and sends `ic` -/
  | idone (a : Nat) (p : PeerCfg) (i : Nat) (rh : RH) (c : Core) (ic : IC)
  /-- server `b` receives `ic`: it has a session with state `c` and sends EmptyData -/
  | rdone (b : Nat) (p : PeerCfg) (h : HashChoice) (k : Nat) (ic : IC) (c : Core)
  /-- server `a` receives the acknowledgement `ed` for the session of event `d` -/
  | iconf (d : Nat) (a : Nat) (p : PeerCfg) (i : Nat) (rh : RH) (c : Core) (ic : IC) (ed : ED)
  /-- the attacker learns a secret -/
  | corrupt (n : Name)
  /-- the attacker learns the output key of a session (state and peer) -/
  | reveal (c : Core) (p : PeerCfg)
  deriving DecidableEq

/-- A run, newest event first. The number of an event is the number of events before it. -/
abbrev Run := List Ev

/-- event number `i` -/
def at? : Run → Nat → Option Ev
  | [], _ => none
  | e :: tr, i => if i = tr.length then some e else at? tr i

/-- the messages that event number `i` sends -/
def sentBy (i : Nat) : Ev → List Term
  | .init a p => (initiation a p i).1.terms
  | .resp b p ih c k bit no => (rhr b p ih c i k bit no).1.terms
  | .idone _ _ _ _ _ ic => ic.terms
  | .rdone _ p _ _ _ c => (ackOf c p).terms
  | _ => []

/-- everything sent so far -/
def sent : Run → List Term
  | [] => []
  | e :: tr => sentBy tr.length e ++ sent tr

/-- What the attacker can compute. -/
inductive Knows (tr : Run) : Term → Prop where
  | sent {t} : t ∈ sent tr → Knows tr t
  | const (b) : Knows tr (.const b)
  | adv (n) : Knows tr (.name (.adv n))
  | serverKey (a) : Knows tr (own a)
  | corrupt {n} : .corrupt n ∈ tr → Knows tr (.name n)
  | reveal {c p} : .reveal c p ∈ tr → Knows tr (osk c p)
  | spk {t} : Knows tr t → Knows tr (.spk t)
  | epk {t} : Knows tr t → Knows tr (.epk t)
  | hash (h) {k d} : Knows tr k → Knows tr d → Knows tr (.hash h k d)
  | aead {k n ad pt} : Knows tr k → Knows tr n → Knows tr ad → Knows tr pt → Knows tr (.aead k n ad pt)
  | open_ {k n ad pt} : Knows tr (.aead k n ad pt) → Knows tr k → Knows tr pt
  | xaead {k n ad pt} : Knows tr k → Knows tr n → Knows tr ad → Knows tr pt → Knows tr (.xaead k n ad pt)
  | xopen {k n ad pt} : Knows tr (.xaead k n ad pt) → Knows tr k → Knows tr pt
  | xnonce {k n ad pt} : Knows tr (.xaead k n ad pt) → Knows tr n
  | bnonce {n} (bit) : Knows tr n → Knows tr (.bnonce n bit)
  | unbnonce {n bit} : Knows tr (.bnonce n bit) → Knows tr n
  | sct {r pk} : Knows tr r → Knows tr pk → Knows tr (.sct r pk)
  | sss {r pk} : Knows tr r → Knows tr pk → Knows tr (.sss r pk)
  | sdec {sk ct} : Knows tr sk → Knows tr ct → Knows tr (sdec sk ct)
  | ect {r pk} : Knows tr r → Knows tr pk → Knows tr (.ect r pk)
  | ess {r pk} : Knows tr r → Knows tr pk → Knows tr (.ess r pk)
  | edec {r ct} : Knows tr r → Knows tr ct → Knows tr (edec r ct)
  | bis {a b c} : Knows tr a → Knows tr b → Knows tr c → Knows tr (.bis a b c)
  | bisPid {a b c} : Knows tr (.bis a b c) → Knows tr a
  | bisNo {a b c} : Knows tr (.bis a b c) → Knows tr b
  | bisCk {a b c} : Knows tr (.bis a b c) → Knows tr c

/-- a session with state `c` and peer `p` was established -/
def Done (tr : Run) (c : Core) (p : PeerCfg) : Prop :=
  (∃ a i rh ic, .idone a p i rh c ic ∈ tr) ∨ (∃ b h k ic, .rdone b p h k ic c ∈ tr)

/-- The runs of the protocol: servers follow it; they receive only messages the attacker can make. -/
inductive Valid (N : Net) : Run → Prop where
  | nil : Valid N []
  | init {tr} (a p) : Valid N tr → N.cfg a p → Valid N (.init a p :: tr)
  | resp {tr} (b p ih c k bit no) : Valid N tr → N.cfg b p → (∀ t ∈ ih.terms, Knows tr t) → ihr b p p.h ih = some c →
      Valid N (.resp b p ih c k bit no :: tr)
  | idone {tr} (a p i rh c ic) : Valid N tr → at? tr i = some (.init a p) → (∀ t ∈ rh.terms, Knows tr t) → rhi a p i rh = some (c, ic) →
      Valid N (.idone a p i rh c ic :: tr)
  | rdone {tr} (b p h k ic c) : Valid N tr → N.cfg b p → (∀ t ∈ ic.terms, Knows tr t) → icr b p h k ic = some c →
      Valid N (.rdone b p h k ic c :: tr)
  | iconf {tr} (d a p i rh c ic ed) : Valid N tr → at? tr d = some (.idone a p i rh c ic) → (∀ t ∈ ed.terms, Knows tr t) → respConf c p ed →
      Valid N (.iconf d a p i rh c ic ed :: tr)
  | corrupt {tr} (n) : Valid N tr → Valid N (.corrupt n :: tr)
  | reveal {tr} (c p) : Valid N tr → Done tr c p → Valid N (.reveal c p :: tr)

end Verif.Sym
