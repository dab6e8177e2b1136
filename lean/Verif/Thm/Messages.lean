import Verif.Thm.HandleMsg
import Verif.Thm.ExRun
/-
C05 (exchange only reported after authentication), C08 (only sealed messages accepted),
C26 (protocol versions are separated).
-/
namespace Verif
open HashDomain Server

section
variable {C : Crypto}

/-! ### Specification vocabulary -/

/-- Absorbing a list of values into a chaining key, one after the other. -/
def chain (C : Crypto) (h : HashChoice) (ck : Bytes) (xs : List Bytes) : Bytes :=
  xs.foldl (fun k x => C.hash h (C.hash h k (dom C h .mix)) x) ck

/-- The AEAD key of the authenticators, derived from the chaining key. -/
def authKey (C : Crypto) (h : HashChoice) (ck : Bytes) : Bytes := C.hash h ck (dom C h .hsEnc)

/-- The twelve zero bytes used as nonce of the handshake authenticators. -/
def zeroNonce : Bytes := List.replicate 12 0

/-- The tag (AEAD of the empty string) under a chaining key. -/
def authTag (C : Crypto) (h : HashChoice) (ck : Bytes) : Bytes := C.aeadEnc (authKey C h ck) zeroNonce [] []

/-- Size of the payload of each sealed message type. -/
def payloadSize (C : Crypto) : MsgType → Nat
  | .initHello => 4 + C.epkLen + C.sctLen + 48 + 16
  | .respHello => 4 + 4 + C.ectLen + C.sctLen + 16 + 116
  | .initConf => 4 + 4 + 116 + 16
  | .emptyData => 4 + 8 + 16
  | .cookieReply => 0

/-- `rh` answers handshake `hs` of server `s`: session id, state, and authenticator are right. -/
structure AnswersHandshake (C : Crypto) (s : Server) (hs : IniHs) (rh : RespHello) : Prop where
  sid : hs.core.sidi = rh.sidi
  waiting : hs.next = .respHello
  auth : ∃ eshk sshk, C.eDecaps hs.eski rh.ecti = some eshk ∧ C.sDecaps s.sskm rh.scti = some sshk ∧
    (C.aeadDec (authKey C hs.core.hc (chain C hs.core.hc hs.core.ck
      [rh.sidr, rh.sidi, hs.epki, eshk, rh.ecti, s.spkm, sshk, rh.scti, rh.biscuitCt])) zeroNonce [] rh.auth).isSome

/-- `ic` carries a biscuit that this server's biscuit key opens to `b` under hash `h`, that was
issued for `peer`, is newer than any accepted one, and whose authenticator is right. -/
structure Confirms (C : Crypto) (s : Server) (h : HashChoice) (peer : Peer) (ic : InitConf) (b : Biscuit) : Prop where
  opens : ∃ pt, C.xOpen (s.biscuitKeys.get (biscuitKeyBit ic.biscuitCt)).value
    (biscuitAd C h s.spkm ic.sidi ic.sidr) ic.biscuitCt = some pt ∧ b = Biscuit.decode pt
  ofPeer : b.pidi = pidt C peer
  fresh : leNat peer.biscuitUsed < leNat b.biscuitNo
  auth : (C.aeadDec (authKey C peer.version.hash (chain C peer.version.hash b.ck
    [ic.biscuitCt, authTag C peer.version.hash (chain C peer.version.hash b.ck [ic.biscuitCt]), ic.sidi, ic.sidr]))
    zeroNonce [] ic.auth).isSome

/-! ### Lemmas -/

theorem answers_of_verify {s : Server} {rh : RespHello} {p c ic} (h : s.rhiVerify C rh = .ok (p, c, ic)) :
    ∃ hs, s.handshake p = some hs ∧ AnswersHandshake C s hs rh := by
  obtain ⟨hs', hh', -, -, -, hsid⟩ := rhiVerify_core h
  obtain ⟨hs, eshk, sshk, pt, c1, hl, hhs, hn, he, hss, hd, -, -⟩ := rhiVerify_ok h
  have : hs' = hs := by rw [hhs] at hh'; cases hh'; rfl
  subst this
  refine ⟨hs', hhs, hsid, hn, eshk, sshk, he, hss, ?_⟩
  unfold Core.decryptAndMix at hd
  split at hd
  · cases hd
  · rename_i x hx
    rw [Option.isSome_iff_exists]
    exact ⟨x, hx⟩

theorem confirms_of_verify {s : Server} (hix : PeerIdx C s) {ic : InitConf} {h : HashChoice} {p no c peer}
    (hv : s.icrVerify C ic h = .ok (p, no, c)) (hp : s.peers[p]? = some peer) :
    ∃ b, Confirms C s h peer ic b ∧ no = b.biscuitNo := by
  obtain ⟨c0, peer1, pt1, o, hl, hd, hp1, hcmp, ho⟩ := icrVerify_ok hv
  obtain ⟨pt, peer2, hx, hf, hp2, rfl, rfl⟩ := loadBiscuit_ok hl
  rw [hp] at hp1 hp2; cases hp1; cases hp2
  refine ⟨Biscuit.decode pt, ⟨⟨pt, hx, rfl⟩, ?_, compare_pos hcmp ho, ?_⟩, rfl⟩
  · obtain ⟨q, hq, hpid⟩ := (hix _ p).mp hf
    rw [hp] at hq; cases hq; exact hpid.symm
  · unfold Core.decryptAndMix at hd
    split at hd
    · cases hd
    · rename_i x hx
      rw [Option.isSome_iff_exists]
      exact ⟨x, hx⟩

/-- The state of the second attempt differs from the original one only in one peer's session and
replay counter, and the counter only grew. -/
theorem AttemptState.facts {s s0 : Server} {ic : InitConf} {h : HashChoice} (hA : AttemptState C s ic h s0) :
    SameGlobals s s0 ∧ (∀ k, (∀ i, k ≠ .sid i) → s0.index k = s.index k) ∧
    (∀ (p : Nat) peer, s0.peers[p]? = some peer → ∃ peer0, s.peers[p]? = some peer0 ∧ Static peer0 peer ∧
      peer.handshake = peer0.handshake ∧ peer.known = peer0.known ∧ leNat peer0.biscuitUsed ≤ leNat peer.biscuitUsed) := by
  rcases hA with rfl | ⟨-, p0, no0, c0, hv, rfl, hq0⟩
  · exact ⟨.refl _, fun _ _ => rfl, fun p peer hp => ⟨peer, hp, ⟨rfl, rfl, rfl, rfl⟩, rfl, rfl, Nat.le_refl _⟩⟩
  · refine ⟨burnt_globals _ _ _, fun k hk => burnt_other _ _ _ _ hk, ?_⟩
    intro p peer hp
    rw [burnt_get] at hp
    by_cases hi : p = p0
    · subst hi
      rw [if_pos rfl, Option.map_eq_some_iff] at hp
      obtain ⟨q, hq, rfl⟩ := hp
      refine ⟨q, hq, ⟨rfl, rfl, rfl, rfl⟩, rfl, rfl, ?_⟩
      obtain ⟨c1, peer1, pt1, o, hl, hd, hp1, hcmp, ho⟩ := icrVerify_ok hv
      rw [hq] at hp1; cases hp1
      exact Nat.le_of_lt (compare_pos hcmp ho)
    · rw [if_neg hi] at hp
      exact ⟨peer, hp, ⟨rfl, rfl, rfl, rfl⟩, rfl, rfl, Nat.le_refl _⟩

theorem AttemptState.peerIdx {s s0 : Server} {ic : InitConf} {h : HashChoice} (hA : AttemptState C s ic h s0)
    (hix : PeerIdx C s) : PeerIdx C s0 := by
  rcases hA with rfl | ⟨-, p0, no0, c0, hv, rfl, hq0⟩
  · exact hix
  · intro pid p
    rw [burnt_other _ _ _ _ (by simp), hix pid p]
    constructor
    · rintro ⟨q, hq, hpid⟩
      rw [burnt_get]
      by_cases hi : p = p0
      · rw [if_pos hi, hq]; exact ⟨_, rfl, hpid⟩
      · rw [if_neg hi]; exact ⟨q, hq, hpid⟩
    · rintro ⟨q, hq, hpid⟩
      obtain ⟨q0, hq0, hst, -⟩ := (AttemptState.facts (Or.inr ⟨rfl, p0, no0, c0, hv, rfl, hq0⟩ : AttemptState C s ic .blake _)).2.2 p q hq
      exact ⟨q0, hq0, by rw [← hpid]; exact hst.pidt.symm⟩

theorem Confirms.back {s s0 : Server} {ic : InitConf} {h : HashChoice} {peer0 peer : Peer} {b : Biscuit}
    (hc : Confirms C s0 h peer ic b) (hg : SameGlobals s s0) (hst : Static peer0 peer)
    (hu : leNat peer0.biscuitUsed ≤ leNat peer.biscuitUsed) : Confirms C s h peer0 ic b := by
  obtain ⟨pt, hx, hb⟩ := hc.opens
  rw [hg.biscuitKeys, hg.spkm] at hx
  refine ⟨⟨pt, hx, hb⟩, hc.ofPeer.trans hst.pidt, Nat.lt_of_le_of_lt hu hc.fresh, ?_⟩
  have := hc.auth
  rwa [hst.2.2.1] at this

theorem checkSeal_iff {s : Server} {h : HashChoice} {e : Env} : s.checkSeal C h e = true ↔ e.mac = macOf C h s.spkm e := by
  unfold checkSeal; exact ConstantTime.memcmp_iff_eq _ _

theorem handleMsg_exchanged {s s' : Server} {rx tx : Bytes} {now : Time} {r : HashChoice → Rnd} {p : Nat} {m : Option Bytes}
    (hok : s.handleMsg C rx tx now r = (.ok ⟨some p, m⟩, s')) :
    (∃ e out c ic peer hs bs, rx = MsgType.respHello.toU8 :: bs ∧ Env.decode (RespHello.size C) rx = some e ∧
      castTx InitConf.size tx = some out ∧ s.checkSeal C peer.version.hash e = true ∧
      RespRun C s e out now (r .shake) p c ic peer hs (.ok ⟨some p, m⟩, s')) ∨
    (∃ e out h s0 no c peer bs, rx = MsgType.initConf.toU8 :: bs ∧ Env.decode InitConf.size rx = some e ∧
      castTx EmptyData.size tx = some out ∧
      s.index (.known (s.knownHash C e)) = none ∧
      AttemptState C s (InitConf.decode e.payload) h s0 ∧ peer.version.hash = h ∧ s0.checkSeal C h e = true ∧
      ConfRun C s0 e out now h p no c peer (.ok ⟨some p, m⟩, s')) := by
  rcases handleMsg_dispatch C s rx tx now r with ⟨x, hx, -⟩ | ⟨t, bs, out, hrx, hout, h⟩
  · rw [hx] at hok; cases hok
  · rcases h with ⟨rfl, e, he, hh⟩ | ⟨rfl, e, he, hh⟩ | ⟨rfl, e, he, hh⟩ | ⟨rfl, e, he, hh⟩ | ⟨rfl, cr, he, hh⟩
    · rw [hh] at hok
      rcases msgInitHello_cases C s e out now r with ⟨x, hx⟩ | ⟨h, q, c, peer, rh, R⟩
      · rw [hx] at hok; cases hok
      · rw [hok] at R
        rcases R.result with ⟨h1, -⟩ | ⟨h1, -⟩ | ⟨h1, -⟩ <;> cases h1
    · rw [hh] at hok
      rcases msgRespHello_cases C s e tx now (r .shake) with ⟨x, hx⟩ | ⟨out', q, c, ic, peer, hs, hc, R⟩
      · rw [hx] at hok; cases hok
      · rw [hok] at R
        have hpq : q = p ∧ s.checkSeal C peer.version.hash e = true := by
          rcases R.result with ⟨h1, -⟩ | ⟨h1, -⟩ | ⟨h1, h2⟩
          · cases h1
          · cases h1
          · exact ⟨by cases h1; rfl, h2⟩
        obtain ⟨rfl, h2⟩ := hpq
        exact Or.inl ⟨e, out', c, ic, peer, hs, bs, hrx, he, hc, h2, R⟩
    · rw [hh] at hok
      rcases msgInitConf_cases C s e tx now with ⟨hx, -⟩ | ⟨out', hc, ⟨q, hq, ⟨x, hx, -⟩ | ⟨peer, k, -, -, -, hx⟩⟩ | ⟨hn, hf⟩⟩
      · rw [hx] at hok; cases hok
      · rw [hx] at hok; cases hok
      · rw [hx] at hok; cases hok
      · rw [hf] at hok
        rcases msgInitConfFresh_cases C s e out' now with ⟨h, s0, x, -, hx, -⟩ | ⟨h, s0, q, no, c, peer, hA, R⟩
        · rw [hx] at hok; cases hok
        · rw [hok] at R
          have hpq : q = p ∧ peer.version.hash = h ∧ s0.checkSeal C h e = true := by
            rcases R.result with ⟨⟨x, -, h1⟩, -⟩ | ⟨h1, -⟩ | ⟨h1, -⟩ | ⟨h1, -⟩ | ⟨s2, h1, -, h2, h3⟩
            · cases h1
            · cases h1
            · cases h1
            · cases h1
            · exact ⟨by cases h1; rfl, h2, h3⟩
          obtain ⟨rfl, h2, h3⟩ := hpq
          exact Or.inr ⟨e, out', h, s0, no, c, peer, bs, hrx, he, hc, hn, hA, h2, h3, R⟩
    · rw [hh] at hok
      rcases hrc : s.handleRespConf C e with ⟨_ | _, _⟩ <;> rw [hrc] at hok <;> cases hok
    · rw [hh] at hok
      rcases hrc : s.handleCookieReply C cr now with ⟨_ | _, _⟩ <;> rw [hrc] at hok <;> cases hok

/-- **C05.** `handle_msg` reports an exchange with peer `p` only for a correctly sealed RespHello
that answers `p`'s pending handshake, or a correctly sealed InitConf whose biscuit is authentic,
fresh, issued for exactly `p`, and whose authenticator is right. -/
theorem exchange_authenticated (L : C.Lawful) {s s' : Server} (hr : Reachable C s) {rx tx : Bytes} {now : Time}
    {r : HashChoice → Rnd} {p : Nat} {m : Option Bytes}
    (hok : s.handleMsg C rx tx now r = (.ok ⟨some p, m⟩, s')) :
    ∃ peer e, s.peers[p]? = some peer ∧ e.mac = macOf C peer.version.hash s.spkm e ∧
     ((rx.head? = some 0x82 ∧ Env.decode (payloadSize C .respHello) rx = some e ∧
        ∃ hs, peer.handshake = some hs ∧ AnswersHandshake C s hs (.decode C e.payload)) ∨
      (rx.head? = some 0x83 ∧ Env.decode (payloadSize C .initConf) rx = some e ∧
        ∃ b, Confirms C s peer.version.hash peer (.decode e.payload) b)) := by
  rcases handleMsg_exchanged hok with ⟨e, out, c, ic, peer, hs, bs, hrx, he, -, hck, R⟩ |
    ⟨e, out, h, s0, no, c, peer, bs, hrx, he, -, -, hA, hver, hck, R⟩
  · obtain ⟨hs', hh', ha⟩ := answers_of_verify R.verify
    have : hs' = hs := by
      have := R.hhs
      unfold handshake at hh'
      rw [R.hpeer, Option.bind_some, this] at hh'
      cases hh'; rfl
    subst this
    exact ⟨peer, e, R.hpeer, checkSeal_iff.mp hck, Or.inl ⟨by rw [hrx]; rfl, he, hs', R.hhs, ha⟩⟩
  · obtain ⟨hg, -, hpeers⟩ := (AttemptState.facts hA)
    obtain ⟨peer0, hp0, hst, -, -, hu⟩ := hpeers p peer R.hpeer
    obtain ⟨b, hb, -⟩ := confirms_of_verify (AttemptState.peerIdx hA (Reachable.peerIdx L hr)) R.verify R.hpeer
    refine ⟨peer0, e, hp0, ?_, Or.inr ⟨by rw [hrx]; rfl, he, b, ?_⟩⟩
    · have := checkSeal_iff.mp hck
      rw [hg.spkm, ← hver, hst.2.2.1] at this
      exact this
    · have := hb.back hg hst hu
      rwa [← hver, hst.2.2.1] at this

/-- Which peer an accepted message is attributed to, and how its seal was checked. -/
theorem handleMsg_ok_sealed {s s' : Server} {rx tx : Bytes} {now : Time} {r : HashChoice → Rnd} {res : MsgResult}
    (hok : s.handleMsg C rx tx now r = (.ok res, s')) :
    (rx.head? = some 0x86 ∧ res = ⟨none, none⟩) ∨
    ∃ (t : MsgType) (e : Env) (p : Nat) (peer : Peer), t ≠ .cookieReply ∧ rx.head? = some t.toU8 ∧
      Env.decode (payloadSize C t) rx = some e ∧
      s.peers[p]? = some peer ∧ e.mac = macOf C peer.version.hash s.spkm e ∧
      (∀ q, res.exchanged = some q → q = p) ∧
      (∀ m, res.resp = some m → ∃ e', m = e'.encode ∧ e'.mac = macOf C peer.version.hash peer.spkt e') := by
  have hseal : ∀ (peer : Peer) (t : MsgType) (e : Env), (sealMsg C peer t e).mac =
      macOf C peer.version.hash peer.spkt (sealMsg C peer t e) := by
    intro peer t e
    unfold sealMsg sealCookie
    split <;> rfl
  rcases handleMsg_dispatch C s rx tx now r with ⟨x, hx, -⟩ | ⟨t, bs, out, hrx, hout, h⟩
  · rw [hx] at hok; cases hok
  · rcases h with ⟨rfl, e, he, hh⟩ | ⟨rfl, e, he, hh⟩ | ⟨rfl, e, he, hh⟩ | ⟨rfl, e, he, hh⟩ | ⟨rfl, cr, he, hh⟩
    · rw [hh] at hok
      rcases msgInitHello_cases C s e out now r with ⟨x, hx⟩ | ⟨h, q, c, peer, rh, R⟩
      · rw [hx] at hok; cases hok
      · rw [hok] at R
        rcases R.result with ⟨h1, -⟩ | ⟨h1, -⟩ | ⟨h1, h2, h3⟩
        · cases h1
        · cases h1
        · cases h1
          refine Or.inr ⟨.initHello, e, q, peer, by decide, by rw [hrx]; rfl, he, R.hpeer, ?_, (by intro q h; cases h), ?_⟩
          · rw [h2]; exact checkSeal_iff.mp h3
          · intro m hm; cases hm; exact ⟨_, rfl, hseal _ _ _⟩
    · rw [hh] at hok
      rcases msgRespHello_cases C s e tx now (r .shake) with ⟨x, hx⟩ | ⟨out', q, c, ic, peer, hs, hc, R⟩
      · rw [hx] at hok; cases hok
      · rw [hok] at R
        rcases R.result with ⟨h1, -⟩ | ⟨h1, -⟩ | ⟨h1, h2⟩
        · cases h1
        · cases h1
        · cases h1
          refine Or.inr ⟨.respHello, e, q, peer, by decide, by rw [hrx]; rfl, he, R.hpeer, checkSeal_iff.mp h2, (by intro x h; cases h; rfl), ?_⟩
          intro m hm; cases hm; exact ⟨_, rfl, hseal { peer with session := _, handshake := _ } _ _⟩
    · rw [hh] at hok
      rcases msgInitConf_cases C s e tx now with ⟨hx, -⟩ | ⟨out', hc, ⟨q, hq, ⟨x, hx, -⟩ | ⟨peer, k, hp, -, hck, hx⟩⟩ | ⟨hn, hf⟩⟩
      · rw [hx] at hok; cases hok
      · rw [hx] at hok; cases hok
      · rw [hx] at hok; cases hok
        refine Or.inr ⟨.initConf, e, q, peer, by decide, by rw [hrx]; rfl, he, hp, checkSeal_iff.mp hck, (by intro x h; cases h), ?_⟩
        intro m hm; cases hm; exact ⟨_, rfl, hseal _ _ _⟩
      · rw [hf] at hok
        rcases msgInitConfFresh_cases C s e out' now with ⟨h, s0, x, -, hx, -⟩ | ⟨h, s0, q, no, c, peer, hA, R⟩
        · rw [hx] at hok; cases hok
        · rw [hok] at R
          rcases R.result with ⟨⟨x, -, h1⟩, -⟩ | ⟨h1, -⟩ | ⟨h1, -⟩ | ⟨h1, -⟩ | ⟨s2, h1, -, h2, h3⟩
          · cases h1
          · cases h1
          · cases h1
          · cases h1
          · cases h1
            obtain ⟨hg, -, hpeers⟩ := (AttemptState.facts hA)
            obtain ⟨peer0, hp0, hst, -, -, hu⟩ := hpeers q peer R.hpeer
            refine Or.inr ⟨.initConf, e, q, peer0, by decide, by rw [hrx]; rfl, he, hp0, ?_, (by intro x h; cases h; rfl), ?_⟩
            · have := checkSeal_iff.mp h3
              rw [hg.spkm, ← h2, hst.2.2.1] at this
              exact this
            · intro m hm; cases hm
              refine ⟨_, rfl, ?_⟩
              rw [← hst.2.2.1, ← hst.2.1]
              exact hseal { peer with biscuitUsed := _, session := _, handshake := _, known := _ } _ _
    · rw [hh] at hok
      rcases handleRespConf_cases C s e with ⟨x, hx⟩ | ⟨p, peer, ses, hl, hp, hses, hn, hc, ht, ⟨h, -⟩ | ⟨h, -⟩⟩
      · rw [hx] at hok; cases hok
      · rw [h] at hok; cases hok
      · rw [h] at hok
        cases hok
        exact Or.inr ⟨.emptyData, e, p, peer, by decide, by rw [hrx]; rfl, he, hp, checkSeal_iff.mp hc, (by intro x h; cases h), by intro x h; cases h⟩
    · left
      refine ⟨by rw [hrx]; rfl, ?_⟩
      rw [hh] at hok
      rcases hrc : s.handleCookieReply C cr now with ⟨_ | _, _⟩ <;> rw [hrc] at hok <;> cases hok
      rfl

/-- **C08.** A handshake message (any type but CookieReply) whose MAC is not the one computed for
this server's public key over exactly the transmitted type, reserved bytes and payload, under the
hash function of one of its peers, is answered with an error. -/
theorem unsealed_rejected {s : Server} {rx tx : Bytes} {now : Time} {r : HashChoice → Rnd}
    (hty : rx.head? ≠ some 0x86)
    (hbad : ∀ (t : MsgType) e (p : Nat) peer, rx.head? = some t.toU8 → Env.decode (payloadSize C t) rx = some e →
      s.peers[p]? = some peer →
      e.mac ≠ (C.hash peer.version.hash (C.hash peer.version.hash (dom C peer.version.hash .mac) s.spkm)
        (e.msgType :: e.reserved ++ e.payload)).take 16) :
    ∃ x, (s.handleMsg C rx tx now r).1 = .error x := by
  cases hres : s.handleMsg C rx tx now r with
  | mk res s' =>
    cases res with
    | error x => exact ⟨x, rfl⟩
    | ok res =>
      rcases handleMsg_ok_sealed hres with ⟨h1, -⟩ | ⟨t, e, p, peer, -, ht, he, hp, hm, -⟩
      · exact absurd h1 hty
      · exact absurd hm (hbad t e p peer ht he hp)

/-- **C26.** An accepted handshake message is attributed to a peer whose configured protocol version
determines the hash its seal was checked with; the reply is sealed under the same version. If the
message was sealed for another version (hash `h`), the two MACs coincide. -/
theorem version_separation {s s' : Server} {rx tx : Bytes} {now : Time} {r : HashChoice → Rnd} {res : MsgResult}
    (hok : s.handleMsg C rx tx now r = (.ok res, s')) (hty : rx.head? ≠ some 0x86) :
    ∃ (t : MsgType) (e : Env) (p : Nat) (peer : Peer), rx.head? = some t.toU8 ∧
      Env.decode (payloadSize C t) rx = some e ∧ s.peers[p]? = some peer ∧
      e.mac = macOf C peer.version.hash s.spkm e ∧
      (∀ q, res.exchanged = some q → q = p) ∧
      (∀ m, res.resp = some m → ∃ e', m = e'.encode ∧ e'.mac = macOf C peer.version.hash peer.spkt e') ∧
      (∀ h, e.mac = macOf C h s.spkm e → h ≠ peer.version.hash →
        macOf C .shake s.spkm e = macOf C .blake s.spkm e) := by
  rcases handleMsg_ok_sealed hok with ⟨h1, -⟩ | ⟨t, e, p, peer, -, ht, he, hp, hm, hx, hr⟩
  · exact absurd h1 hty
  · refine ⟨t, e, p, peer, ht, he, hp, hm, hx, hr, ?_⟩
    intro h hh hne
    rw [hm] at hh
    cases h <;> cases hv : peer.version.hash <;> rw [hv] at hh hne
    · exact absurd rfl hne
    · exact hh.symm
    · exact hh
    · exact absurd rfl hne

end

/-- C05, C26: both exchanges of a run are reported, with a reply, in both protocol versions. -/
example (v : Version) : (Ex.c3 v).1 = .ok ⟨some 0, some (Ex.m3 v)⟩ ∧ (Ex.c4 v).1 = .ok ⟨some 0, some (Ex.m4 v)⟩ ∧
    (Ex.m3 v).head? = some 0x83 := by
  cases v <;> decide +kernel

/-- C08: an InitHello with a flipped reserved byte meets the hypothesis of `unsealed_rejected`. -/
example : ∃ e, Env.decode (payloadSize Toy.crypto .initHello) (Ex.flip (Ex.m1 .v03) 2) = some e ∧
    ∀ (p : Nat) peer, (Ex.B0 .v03).peers[p]? = some peer → e.mac ≠ macOf Toy.crypto peer.version.hash (Ex.B0 .v03).spkm e := by
  refine ⟨Env.view (InitHello.size Toy.crypto) (Ex.flip (Ex.m1 .v03) 2), by decide +kernel, ?_⟩
  intro p peer hp
  have : peer.version = .v03 := by
    match p, hp with
    | 0, hp => cases hp; rfl
  rw [this]
  decide +kernel

end Verif
