import Verif.Thm.Replay
/-
C06 (peer isolation), C07 (what a rejected message can change).
-/
namespace Verif
open HashDomain Server

/-! ### Specification vocabulary -/

/-- Another peer than `p` currently uses session id `id` (in its session or pending handshake). -/
def SidTaken (s : Server) (p : Nat) (id : Bytes) : Prop := ∃ q, q ≠ p ∧ Carries s q id

/-- The biscuit in the InitConf `rx` opens under the additional data of both hash functions. -/
def OpensTwice (C : Crypto) (s : Server) (rx : Bytes) : Prop :=
  ∃ e, Env.decode (payloadSize C .initConf) rx = some e ∧
    let ic := InitConf.decode e.payload
    ∀ h, (C.xOpen (s.biscuitKeys.get (biscuitKeyBit ic.biscuitCt)).value
      (biscuitAd C h s.spkm ic.sidi ic.sidr) ic.biscuitCt).isSome

/-- `rx` is an authentic RespHello for the handshake of `peer`, except that its seal is broken or
the session id is in use by another peer (when `rejected`). -/
def RespHelloFor (C : Crypto) (s : Server) (rx : Bytes) (p : Nat) (peer : Peer) (rejected : Bool) : Prop :=
  rx.head? = some 0x82 ∧ ∃ e hs, Env.decode (payloadSize C .respHello) rx = some e ∧ peer.handshake = some hs ∧
    AnswersHandshake C s hs (.decode C e.payload) ∧
    (rejected = true → e.mac ≠ macOf C peer.version.hash s.spkm e ∨ SidTaken s p hs.core.sidi)

/-- `rx` is an InitConf with an authentic fresh biscuit of `peer` and a right authenticator, except
(when `rejected`) for the hash function, the seal or the availability of the session id. -/
def InitConfFor (C : Crypto) (s : Server) (rx : Bytes) (p : Nat) (peer : Peer) (rejected : Bool) : Prop :=
  rx.head? = some 0x83 ∧ ∃ e h b, Env.decode (payloadSize C .initConf) rx = some e ∧
    Confirms C s h peer (.decode e.payload) b ∧
    (rejected = true → h ≠ peer.version.hash ∨ e.mac ≠ macOf C h s.spkm e ∨ SidTaken s p (InitConf.decode e.payload).sidr)

/-- `rx` is a sealed EmptyData for the session of `peer` that waits for one, with a counter that is
not stale; it decrypts unless `rejected`. -/
def EmptyDataFor (C : Crypto) (s : Server) (rx : Bytes) (peer : Peer) (rejected : Bool) : Prop :=
  rx.head? = some 0x84 ∧ ∃ e hs ses, Env.decode (payloadSize C .emptyData) rx = some e ∧
    peer.handshake = some hs ∧ hs.next = .respConf ∧ peer.session = some ses ∧
    let ed := EmptyData.decode e.payload
    hs.core.sidi = ed.sid ∧ e.mac = macOf C peer.version.hash s.spkm e ∧ ses.txnt ≤ leNat ed.ctr ∧
    (C.aeadDec ses.txkt (ed.ctr ++ [0, 0, 0, 0]) [] ed.auth).isSome = !rejected

/-- `rx` is a CookieReply for the pending handshake of `peer`; its cookie decrypts unless `rejected`. -/
def CookieReplyFor (C : Crypto) (s : Server) (rx : Bytes) (p : Nat) (peer : Peer) (rejected : Bool) : Prop :=
  rx.head? = some 0x86 ∧ ∃ cr hs mac, CookieReply.decode C rx = some cr ∧ peer.handshake = some hs ∧
    Carries s p cr.sid ∧ lastMac C hs = .ok mac ∧
    (C.xOpen (cookieKey C peer.spkt) mac cr.cookieEncrypted).isSome = !rejected

section
variable {C : Crypto}

theorem sessTake_sid_some {s : Server} {p : Nat} {id : Bytes} {q : Nat} (h : (s.sessTake p).index (.sid id) = some q) :
    s.index (.sid id) = some q := by
  rw [sessTake_sid] at h
  split at h
  · cases h
  · exact h

theorem burnt_sid_some {s : Server} {p : Nat} {no id : Bytes} {q : Nat} (h : (s.burnt p no).index (.sid id) = some q) :
    s.index (.sid id) = some q := by
  have := sessTake_sid_some h
  rwa [modPeer_index] at this

theorem AttemptState.sid {s s0 : Server} {ic : InitConf} {h : HashChoice} (hA : AttemptState C s ic h s0) {id : Bytes} {q : Nat}
    (hq : s0.index (.sid id) = some q) : s.index (.sid id) = some q := by
  rcases hA with rfl | ⟨-, p0, no0, c0, hv, rfl, HQ⟩
  · exact hq
  · exact burnt_sid_some hq

theorem knownIdx_of_upd {a b : Server} {i f} (hu : Upd a b i f) (hf : ∀ x, (f x).known = x.known)
    (hix : ∀ h, b.index (.known h) = a.index (.known h)) (ha : KnownIdx a) : KnownIdx b := by
  intro h p
  rw [hix, ha, known_of_upd hu hf]

theorem confirmed_knownIdx {s : Server} (hk : KnownIdx s) (p no ses) : KnownIdx (s.confirmed p no ses) :=
  knownIdx_of_upd (confirmed_get s p no ses) (fun _ => rfl) (fun _ => confirmed_other _ _ _ _ _ (by simp)) hk

theorem AttemptState.knownIdx {s s0 : Server} {ic : InitConf} {h : HashChoice} (hA : AttemptState C s ic h s0)
    (hk : KnownIdx s) : KnownIdx s0 := by
  rcases hA with rfl | ⟨-, p0, no0, c0, hv, rfl, -⟩
  · exact hk
  · exact knownIdx_of_upd (burnt_get s p0 no0) (fun _ => rfl) (fun _ => burnt_other _ _ _ _ (by simp)) hk

theorem icrVerify_opens {s : Server} {ic : InitConf} {h : HashChoice} {p no c} (hv : s.icrVerify C ic h = .ok (p, no, c)) :
    (C.xOpen (s.biscuitKeys.get (biscuitKeyBit ic.biscuitCt)).value (biscuitAd C h s.spkm ic.sidi ic.sidr) ic.biscuitCt).isSome := by
  obtain ⟨c0, peer1, pt1, o, hl, -⟩ := icrVerify_ok hv
  obtain ⟨pt, peer2, hx, -⟩ := loadBiscuit_ok hl
  rw [hx]; rfl

def rejected {α} : Except Err α → Bool
  | .error _ => true
  | .ok _ => false

/-- Everything `handle_msg` can change about the peers. -/
theorem handleMsg_changes (L : C.Lawful) {s s' : Server} (hr : Reachable C s) {rx tx : Bytes} {now : Time}
    {r : HashChoice → Rnd} {res : Except Err MsgResult} (h : s.handleMsg C rx tx now r = (res, s')) :
    s'.peers = s.peers ∨
    (∃ (p : Nat) (peer : Peer), s.peers[p]? = some peer ∧ (∀ q, q ≠ p → s'.peers[q]? = s.peers[q]?) ∧
      (RespHelloFor C s rx p peer (rejected res) ∨ InitConfFor C s rx p peer (rejected res) ∨
       EmptyDataFor C s rx peer (rejected res) ∨ CookieReplyFor C s rx p peer (rejected res))) ∨
    (rx.head? = some 0x83 ∧ OpensTwice C s rx) := by
  have hsound := Reachable.sidSound L hr
  rcases handleMsg_dispatch C s rx tx now r with ⟨x, hx, -⟩ | ⟨t, bs, out, hrx, hout, hd⟩
  · rw [hx] at h; cases h; exact Or.inl rfl
  rcases hd with ⟨rfl, e, he, hh⟩ | ⟨rfl, e, he, hh⟩ | ⟨rfl, e, he, hh⟩ | ⟨rfl, e, he, hh⟩ | ⟨rfl, cr, he, hh⟩
  · left
    rw [hh] at h
    rcases msgInitHello_cases C s e out now r with ⟨y, hx⟩ | ⟨h', q, c, peer, rh, R⟩
    · rw [hx] at h; cases h; rfl
    · rw [h] at R
      rcases R.result with ⟨h1, -⟩ | ⟨h1, -⟩ | ⟨h1, -⟩ <;> (cases h1; exact issued_peers _ _ _)
  · rw [hh] at h
    rcases msgRespHello_cases C s e tx now (r .shake) with ⟨y, hx⟩ | ⟨out', p, c, ic, peer, hs, hc, R⟩
    · rw [hx] at h; cases h; exact Or.inl rfl
    · rw [h] at R
      obtain ⟨hs', hhs', hans⟩ := answers_of_verify R.verify
      obtain ⟨hs2, hhs2, -, hsidi, -⟩ := rhiVerify_core R.verify
      have e1 : hs' = hs := by unfold handshake at hhs'; rw [R.hpeer] at hhs'; simp only [Option.bind_some, R.hhs] at hhs'; cases hhs'; rfl
      have e2 : hs2 = hs := by unfold handshake at hhs2; rw [R.hpeer] at hhs2; simp only [Option.bind_some, R.hhs] at hhs2; cases hhs2; rfl
      subst e1; subst e2
      right; left
      have hhead : rx.head? = some 0x82 := by rw [hrx]; rfl
      rcases R.result with ⟨h1, q, hq, hqi⟩ | ⟨h1, hck⟩ | ⟨h1, hck⟩
      · cases h1
        refine ⟨p, peer, R.hpeer, ?_, Or.inl ⟨hhead, e, hs2, he, R.hhs, hans, fun _ => Or.inr ⟨q, hq, ?_⟩⟩⟩
        · intro i hi; rw [sessTake_get, if_neg hi]
        · have := hsound _ _ (sessTake_sid_some hqi)
          rw [← hsidi]; exact this
      · cases h1
        refine ⟨p, peer, R.hpeer, ?_, Or.inl ⟨hhead, e, hs2, he, R.hhs, hans, fun _ => Or.inl ?_⟩⟩
        · intro i hi; rw [accepted_get, if_neg hi]
        · intro hm; rw [checkSeal_iff.mpr hm] at hck; cases hck
      · cases h1
        refine ⟨p, peer, R.hpeer, ?_, Or.inl ⟨hhead, e, hs2, he, R.hhs, hans, fun h => by cases h⟩⟩
        intro i hi; rw [modHs_get, if_neg hi, accepted_get, if_neg hi]
  · rw [hh] at h
    have hhead : rx.head? = some 0x83 := by rw [hrx]; rfl
    rcases msgInitConf_cases C s e tx now with ⟨hx, -⟩ | ⟨out', hc, ⟨q, hq, ⟨x, hx, -⟩ | ⟨peer, k, -, -, -, hx⟩⟩ | ⟨hn, hf⟩⟩
    · rw [hx] at h; cases h; exact Or.inl rfl
    · rw [hx] at h; cases h; exact Or.inl rfl
    · rw [hx] at h; cases h; exact Or.inl rfl
    · rw [hf] at h
      rcases msgInitConfFresh_cases C s e out' now with ⟨h', s0, x, hA, hx, -⟩ | ⟨h', s0, q, no, c, peer0, hA, R⟩
      · rw [hx] at h; cases h
        rcases hA with rfl | ⟨-, p0, no0, c0, hv, rfl, hq0'⟩
        · exact Or.inl rfl
        · obtain ⟨q, hq, hqi⟩ := hq0'
          have hv' := hv
          obtain ⟨-, peer, -, -, -, -, hp, -, -⟩ := icrVerify_ok hv'
          obtain ⟨b, hb, -⟩ := confirms_of_verify (Reachable.peerIdx L hr) hv hp
          right; left
          refine ⟨p0, peer, hp, ?_, Or.inr (Or.inl ⟨hhead, e, .shake, b, he, hb, fun _ => Or.inr (Or.inr ⟨q, hq, ?_⟩)⟩)⟩
          · intro i hi; rw [burnt_get, if_neg hi]
          · have := hsound _ _ (burnt_sid_some hqi)
            rw [(icrVerify_core hv hp).2.2] at this
            exact this
      · rw [h] at R
        obtain ⟨hg, -, hpeers⟩ := AttemptState.facts hA
        have hpos : ∀ i, i ≠ q → s'.peers[i]? = s0.peers[i]? := by
          intro i hi
          rcases R.result with ⟨⟨x, -, h1⟩, -⟩ | ⟨h1, -⟩ | ⟨h1, -⟩ | ⟨h1, -⟩ | ⟨s2, h1, hk, h2, h3⟩
          · cases h1; rw [burnt_get, if_neg hi]
          · cases h1; rw [confirmed_get, if_neg hi]
          · cases h1; rw [confirmed_get, if_neg hi]
          · cases h1; rw [confirmed_get, if_neg hi]
          · cases h1; rw [knownInsert_upd hk i, if_neg hi, confirmed_get, if_neg hi]
        by_cases hcase : ∀ i, i ≠ q → s'.peers[i]? = s.peers[i]?
        · right; left
          obtain ⟨peer1, hp1, hst, -, -, hu⟩ := hpeers q peer0 R.hpeer
          obtain ⟨b, hb, -⟩ := confirms_of_verify (AttemptState.peerIdx hA (Reachable.peerIdx L hr)) R.verify R.hpeer
          refine ⟨q, peer1, hp1, hcase, Or.inr (Or.inl ⟨hhead, e, h', b, he, hb.back hg hst hu, ?_⟩)⟩
          intro hrej
          have hck : s0.checkSeal C h' e = false → e.mac ≠ macOf C h' s.spkm e := by
            intro hck hm
            rw [← hg.spkm] at hm
            rw [checkSeal_iff.mpr hm] at hck; cases hck
          rcases R.result with ⟨⟨x, -, h1⟩, q1, hq1, hq2⟩ | ⟨h1, h2⟩ | ⟨h1, h2⟩ | ⟨h1, hk⟩ | ⟨s2, h1, hk, h2, h3⟩
          · right; right
            refine ⟨q1, hq1, ?_⟩
            have := hsound _ _ (AttemptState.sid hA (burnt_sid_some hq2))
            have hc2 : (c.enterLive C now .responder peer0.version.hash).sidm = (InitConf.decode e.payload).sidr :=
              (icrVerify_core R.verify R.hpeer).2.2
            rw [hc2] at this; exact this
          · left; rw [← hst.2.2.1]; exact fun h => h2 h.symm
          · right; left; exact hck h2
          · obtain ⟨s2, hs2⟩ := knownInsert_some (confirmed_knownIdx (AttemptState.knownIdx hA (Reachable.knownIdx L hr)) q no
              (c.enterLive C now .responder peer0.version.hash)) q
              { receivedAt := now, requestMac := s0.knownHash C e, response := { out' with payload := (ackOf C (c.enterLive C now .responder peer0.version.hash)).encode } }
            rw [hk] at hs2; cases hs2
          · cases h1; cases hrej
        · right; right
          refine ⟨hhead, e, he, ?_⟩
          rcases hA with rfl | ⟨rfl, p0, no0, c0, hv, rfl, -⟩
          · exact absurd hpos hcase
          · have h1 := icrVerify_opens hv
            have h2 := icrVerify_opens R.verify
            rw [hg.biscuitKeys, hg.spkm] at h2
            intro ic hh
            cases hh
            · exact h1
            · exact h2
  · rw [hh] at h
    have hhead : rx.head? = some 0x84 := by rw [hrx]; rfl
    rcases handleRespConf_cases C s e with ⟨x, hx⟩ | ⟨p, peer, ses, hl, hp, hses, hn, hck, hct, hres⟩
    · rw [hx] at h; cases h; exact Or.inl rfl
    · right; left
      have hsid : ∃ hs, peer.handshake = some hs ∧ hs.core.sidi = (EmptyData.decode e.payload).sid := by
        unfold lookupHandshake at hl
        split at hl
        · cases hl
        · split at hl
          · cases hl
            rename_i h2
            unfold handshake at h2
            rw [hp, Option.bind_some, Option.map_eq_some_iff] at h2
            exact h2
          · cases hl
      obtain ⟨hs, hhs, hsid⟩ := hsid
      rw [hhs, Option.map_some] at hn
      have hn' : hs.next = .respConf := Option.some.inj hn
      refine ⟨p, peer, hp, ?_, Or.inr (Or.inr (Or.inl ⟨hhead, e, hs, ses, he, hhs, hn', hses, hsid, checkSeal_iff.mp hck, hct, ?_⟩))⟩
      · intro i hi
        rcases hres with ⟨h1, -⟩ | ⟨h1, -⟩
        · rw [h1] at h; cases h; rw [modPeer_get, if_neg hi]
        · rw [h1] at h; cases h; rw [hsTake_get, if_neg hi, modPeer_get, if_neg hi]
      · rcases hres with ⟨h1, h2⟩ | ⟨h1, h2⟩
        · rw [h1] at h; cases h; exact congrArg Option.isSome h2
        · rw [h1] at h; cases h; exact h2
  · rw [hh] at h
    have hhead : rx.head? = some 0x86 := by rw [hrx]; rfl
    rcases handleCookieReply_cases C s cr now with ⟨x, hx⟩ | ⟨p, peer, hs, mac, hl, hp, hhs, hm, hres⟩
    · rw [hx] at h; cases h; exact Or.inl rfl
    · right; left
      have hsid : Carries s p cr.sid := by
        rcases hl with hl | hl
        · left
          unfold lookupSession at hl
          split at hl
          · cases hl
          · split at hl
            · cases hl; assumption
            · cases hl
        · right
          unfold lookupHandshake at hl
          split at hl
          · cases hl
          · split at hl
            · cases hl; assumption
            · cases hl
      refine ⟨p, peer, hp, ?_, Or.inr (Or.inr (Or.inr ⟨hhead, cr, hs, mac, he, hhs, hsid, hm, ?_⟩))⟩
      · intro i hi
        rcases hres with ⟨-, h1⟩ | ⟨v, -, h1⟩
        · rw [h1] at h; cases h; rw [modHs_get, if_neg hi]
        · rw [h1] at h; cases h; rw [modHs_get, if_neg hi]
      · rcases hres with ⟨h2, h1⟩ | ⟨v, h2, h1⟩
        · rw [h1] at h; cases h; rw [h2]; rfl
        · rw [h1] at h; cases h; rw [h2]; rfl

theorem underLoad_changes (L : C.Lawful) {s : Server} (hr : Reachable C s) {rx tx host : Bytes} {now : Time}
    {r : HashChoice → Rnd} :
    let res := (s.handleMsgUnderLoad C rx tx host now r).1
    let s' := (s.handleMsgUnderLoad C rx tx host now r).2
    s'.peers = s.peers ∨
    (∃ (p : Nat) (peer : Peer), s.peers[p]? = some peer ∧ (∀ q, q ≠ p → s'.peers[q]? = s.peers[q]?) ∧
      (RespHelloFor C s rx p peer (rejected res) ∨ InitConfFor C s rx p peer (rejected res) ∨
       EmptyDataFor C s rx peer (rejected res) ∨ CookieReplyFor C s rx p peer (rejected res))) ∨
    (rx.head? = some 0x83 ∧ OpensTwice C s rx) := by
  intro res s'
  rcases underLoad_cases C s rx tx host now r with ⟨x, -, hx, -⟩ | ⟨-, hx⟩ | ⟨h81, i, ids, s1, -, hs1, ⟨-, hx⟩ |
    ⟨e, -, ⟨-, hx⟩ | ⟨-, ⟨-, hx⟩ | ⟨-, hx⟩⟩⟩⟩
  · left; show (s.handleMsgUnderLoad C rx tx host now r).2.peers = _; rw [hx]
  · exact handleMsg_changes L hr hx.symm
  · left; show (s.handleMsgUnderLoad C rx tx host now r).2.peers = _; rw [hx, hs1]
  · left
    show (s.handleMsgUnderLoad C rx tx host now r).2.peers = _
    rw [hx]
    have hp : s1.peers = s.peers := by rw [hs1]
    rw [← hp]
    rcases handleMsg_dispatch C s1 rx tx now r with ⟨x, hx, -⟩ | ⟨t, bs, out, hrx, hout, hd⟩
    · rw [hx]
    rcases hd with ⟨rfl, e, he, hh⟩ | ⟨rfl, -⟩ | ⟨rfl, -⟩ | ⟨rfl, -⟩ | ⟨rfl, -⟩
    · rw [hh]
      rcases msgInitHello_cases C s1 e out now r with ⟨y, hx⟩ | ⟨h', q, c, peer, rh, R⟩
      · rw [hx]
      · rcases R.result with ⟨h1, -⟩ | ⟨h1, -⟩ | ⟨h1, -⟩ <;> (rw [h1]; exact issued_peers _ _ _)
    all_goals (rw [hrx] at h81; exact absurd h81 (by simp only [List.head?_cons]; decide))
  · left; show (s.handleMsgUnderLoad C rx tx host now r).2.peers = _; rw [hx, hs1]
  · left; show (s.handleMsgUnderLoad C rx tx host now r).2.peers = _; rw [hx, hs1]

theorem step_changes (L : C.Lawful) {s : Server} (hr : Reachable C s) {o : Op} {rx : Bytes} (hrx : o.received = some rx) :
    (s.step C o).peers = s.peers ∨
    (∃ (p : Nat) (peer : Peer), s.peers[p]? = some peer ∧ (∀ q, q ≠ p → (s.step C o).peers[q]? = s.peers[q]?) ∧
      (RespHelloFor C s rx p peer (rejected (o.result C s)) ∨ InitConfFor C s rx p peer (rejected (o.result C s)) ∨
       EmptyDataFor C s rx peer (rejected (o.result C s)) ∨ CookieReplyFor C s rx p peer (rejected (o.result C s)))) ∨
    (rx.head? = some 0x83 ∧ OpensTwice C s rx) := by
  cases o with
  | addPeer psk pk v osk => cases hrx
  | initiate p now r tx => cases hrx
  | handleMsg rx tx now r => cases hrx; exact handleMsg_changes L hr rfl
  | handleMsgUnderLoad rx tx host now r => cases hrx; exact underLoad_changes L hr
  | poll now r => cases hrx
  | retransmit p tx => cases hrx

/-- **C06.** Processing any received datagram, whether under load or not, changes at most one peer:
there is a peer such that every other peer is exactly as before, including the key it outputs. The
only exception would be an InitConf whose one biscuit ciphertext opens under two different
additional data values (that of SHAKE256 and that of BLAKE2b). -/
theorem peer_isolation (L : C.Lawful) {s : Server} (hr : Reachable C s) (o : Op) (rx : Bytes) (hrx : o.received = some rx) :
    (∃ p : Nat, ∀ q : Nat, q ≠ p → (s.step C o).peers[q]? = s.peers[q]? ∧ (s.step C o).osk C q = s.osk C q) ∨
    (rx.head? = some 0x83 ∧ OpensTwice C s rx) := by
  have hosk : ∀ q : Nat, (s.step C o).peers[q]? = s.peers[q]? → (s.step C o).osk C q = s.osk C q := by
    intro q hq
    unfold osk oskWith
    rw [hq]
  rcases step_changes L hr hrx with h | ⟨p, peer, -, h, -⟩ | h
  · left; exact ⟨0, fun q _ => ⟨by rw [h], hosk q (by rw [h])⟩⟩
  · left; exact ⟨p, fun q hq => ⟨h q hq, hosk q (h q hq)⟩⟩
  · right; exact h

/-- **C06**, which peer: if a datagram changes anything about the peers, then it is the peer whose
handshake the RespHello answers, whose biscuit the InitConf confirms, whose session the EmptyData
acknowledges or whose handshake the CookieReply names. In particular an InitHello, an InitHello under
load and any message of unknown type change no peer. -/
theorem changed_peer_was_addressed (L : C.Lawful) {s : Server} (hr : Reachable C s) (o : Op) (rx : Bytes)
    (hrx : o.received = some rx) (hne : (s.step C o).peers ≠ s.peers) :
    (∃ (p : Nat) (peer : Peer) (rej : Bool), s.peers[p]? = some peer ∧ (∀ q, q ≠ p → (s.step C o).peers[q]? = s.peers[q]?) ∧
      (RespHelloFor C s rx p peer rej ∨ InitConfFor C s rx p peer rej ∨ EmptyDataFor C s rx peer rej ∨ CookieReplyFor C s rx p peer rej)) ∨
    (rx.head? = some 0x83 ∧ OpensTwice C s rx) := by
  rcases step_changes L hr hrx with h | ⟨p, peer, h1, h2, h3⟩ | h
  · exact absurd h hne
  · exact Or.inl ⟨p, peer, _, h1, h2, h3⟩
  · exact Or.inr h

/-- **C07**, the part that holds. A rejected datagram changes no peer at all, unless it is
* an authentic RespHello or InitConf whose outer seal is broken or whose session id is in use by
  another peer (or, for InitConf, was bound with another version's hash),
* a sealed EmptyData for a session waiting for one, with a fresh counter but a wrong tag,
* a CookieReply for a pending handshake whose cookie does not decrypt.
`rejected_not_without_effect` shows that these exceptions are real. -/
theorem rejected_no_effect_partial (L : C.Lawful) {s : Server} (hr : Reachable C s) (o : Op) (rx : Bytes)
    (hrx : o.received = some rx) (x : Err) (herr : o.result C s = .error x) :
    (s.step C o).peers = s.peers ∨
    (∃ (p : Nat) (peer : Peer), s.peers[p]? = some peer ∧ (∀ q, q ≠ p → (s.step C o).peers[q]? = s.peers[q]?) ∧
      (RespHelloFor C s rx p peer true ∨ InitConfFor C s rx p peer true ∨
       EmptyDataFor C s rx peer true ∨ CookieReplyFor C s rx p peer true)) ∨
    (rx.head? = some 0x83 ∧ OpensTwice C s rx) := by
  have := step_changes L hr hrx
  rw [herr] at this
  exact this

end

namespace Ex

/-- an EmptyData anyone can make: session id from the wire, counter 2^64-1, no valid tag; the MAC key
is the receiver's public key -/
def forgedEmptyData : Bytes :=
  let sid := (InitConf.decode (Env.view InitConf.size (m3 .v03)).payload).sidi
  let payload := EmptyData.encode { sid := sid, ctr := List.replicate 8 255, auth := List.replicate 16 0 }
  let e : Env := { msgType := 0, reserved := [0, 0, 0], payload := payload, mac := [], cookie := List.replicate 16 0 }
  let peer : Peer := { (default : Peer) with spkt := (A2 .v03).spkm, version := .v03 }
  (sealMsg Toy.crypto peer .emptyData e).encode

/-- a CookieReply without a valid cookie, for the session id of the InitHello seen on the wire -/
def forgedCookie : Bytes :=
  let sid := (InitHello.decode Toy.crypto (Env.view (InitHello.size Toy.crypto) (m1 .v03)).payload).sidi
  let pad := List.replicate (CookieReply.padLen Toy.crypto) 0
  CookieReply.encode { msgType := 0x86, reserved := [0, 0, 0], sid := sid, cookieEncrypted := List.replicate 56 7, padding := pad }

end Ex

/-- the hypotheses of C06 are met: the responder's state changes when it accepts a genuine InitConf -/
example : ∃ o : Op, o.received = some (Ex.m3 .v03) ∧ Reachable Toy.crypto (Ex.B1 .v03) ∧ ((Ex.B1 .v03).step Toy.crypto o).peers ≠ (Ex.B1 .v03).peers := by
  refine ⟨.handleMsg (Ex.m3 .v03) Ex.buf 3 (fun _ => Ex.rnd 40), rfl, Ex.B1_reach _, fun h => absurd (congrArg (List.map Peer.biscuitUsed) h) ?_⟩
  decide +kernel

/-- **C07 is false as stated**: a rejected message can change a peer. An attacker who tampers with
the unauthenticated-by-AEAD part of an InitConf in transit makes the responder reject it, record its
biscuit as used and reject the genuine one afterwards. -/
theorem rejected_not_without_effect :
    ∃ (s : Server) (o o' : Op) (x y : Err), Reachable Toy.crypto s ∧ o.result Toy.crypto s = .error x ∧
      (s.step Toy.crypto o).peers ≠ s.peers ∧
      (∃ m, o'.result Toy.crypto s = .ok ⟨some 0, some m⟩) ∧ o'.result Toy.crypto (s.step Toy.crypto o) = .error y := by
  refine ⟨Ex.B1 .v03, .handleMsg (Ex.flip (Ex.m3 .v03) 144) Ex.buf 3 (fun _ => Ex.rnd 40), .handleMsg (Ex.m3 .v03) Ex.buf 3 (fun _ => Ex.rnd 40),
    .sealBroken, .noHash, Ex.B1_reach _, ?_, ?_, ⟨Ex.m4 .v03, ?_⟩, ?_⟩
  · decide +kernel
  · refine fun h => absurd (congrArg (List.map Peer.biscuitUsed) h) ?_
    decide +kernel
  · decide +kernel
  · decide +kernel

/-- C07, the other exceptions: a RespHello with a broken MAC replaces the session, a forged EmptyData
advances the receive counter, a forged CookieReply overwrites the stored cookie. -/
theorem rejected_other_effects :
    (∃ (s : Server) (o : Op) (x : Err), Reachable Toy.crypto s ∧ o.result Toy.crypto s = .error x ∧
      (s.step Toy.crypto o).peers.map (·.session.isSome) ≠ s.peers.map (·.session.isSome)) ∧
    (∃ (s : Server) (o : Op) (x : Err), Reachable Toy.crypto s ∧ o.result Toy.crypto s = .error x ∧
      (s.step Toy.crypto o).peers.map (·.session.map (·.txnt)) ≠ s.peers.map (·.session.map (·.txnt))) ∧
    (∃ (s : Server) (o : Op) (x : Err), Reachable Toy.crypto s ∧ o.result Toy.crypto s = .error x ∧
      (s.step Toy.crypto o).peers.map (·.handshake.map (·.cookieValue)) ≠ s.peers.map (·.handshake.map (·.cookieValue))) := by
  refine ⟨⟨Ex.A1 .v03, .handleMsg (Ex.flip (Ex.m2 .v03) ((Ex.m2 .v03).length - 32)) Ex.buf 2 (fun _ => Ex.rnd 30), .sealBroken, Ex.A1_reach _, ?_, ?_⟩,
    ⟨Ex.A2 .v03, .handleMsg (Ex.forgedEmptyData) Ex.buf 2 (fun _ => Ex.rnd 30), .decrypt, Ex.A2_reach _, ?_, ?_⟩,
    ⟨Ex.A1 .v03, .handleMsg (Ex.forgedCookie) Ex.buf 2 (fun _ => Ex.rnd 30), .decrypt, Ex.A1_reach _, ?_, ?_⟩⟩
  all_goals decide +kernel

end Verif
