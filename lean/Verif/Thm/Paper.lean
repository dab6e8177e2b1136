import Verif.Model.Paper
import Verif.Thm.Replay
import Verif.Thm.Index
import Verif.Thm.Lifecycle
import Verif.Thm.KeyAgreement
import Verif.Thm.ExRun
/-
C131: the handshake is the one the white paper specifies. `Verif.Paper` (Model/Paper.lean) transcribes
the paper and knows nothing of the model of the code; the theorems here say that what the code sends,
accepts and derives is what the paper prescribes.
-/
namespace Verif
open HashDomain Server

namespace Paper
section
variable {C : Crypto}

theorem hash_eq (h : HashChoice) (k d : Bytes) : Paper.hash C h k d = C.hash h k d := by
  cases h <;> rfl

theorem hashes_eq (h : HashChoice) (k : Bytes) (ds : List Bytes) : Paper.hashes C h k ds = HashDomain.mixMany C h k ds := by
  induction ds generalizing k with
  | nil => rfl
  | cons d ds ih => rw [hashes, ih, hash_eq]; rfl

theorem protocol_eq (h : HashChoice) : Paper.PROTOCOL h = HashDomain.protocolLabel h := by
  cases h <;> decide +kernel

theorem lhash_eq (h : HashChoice) (ds : List Bytes) :
    Paper.lhash C h ds = HashDomain.mixMany C h (HashDomain.protocol C h) ds := by
  unfold lhash
  rw [hashes_eq, hash_eq, protocol_eq]; rfl

theorem lhash_snoc (h : HashChoice) (ds : List Bytes) (d : Bytes) :
    Paper.lhash C h (ds ++ [d]) = C.hash h (Paper.lhash C h ds) d := by
  rw [lhash_eq, lhash_eq]
  simp [HashDomain.mixMany, HashDomain.mix]

theorem dom_mac (h : HashChoice) : dom C h .mac = lhash C h [str "mac"] := by
  rw [lhash_eq, show [str "mac"] = Purpose.mac.labels from by decide +kernel]; rfl
theorem dom_cookie (h : HashChoice) : dom C h .cookie = lhash C h [str "cookie"] := by
  rw [lhash_eq, show [str "cookie"] = Purpose.cookie.labels from by decide +kernel]; rfl
theorem dom_cookieValue (h : HashChoice) : dom C h .cookieValue = lhash C h [str "cookie-value"] := by
  rw [lhash_eq, show [str "cookie-value"] = Purpose.cookieValue.labels from by decide +kernel]; rfl
theorem dom_cookieKey (h : HashChoice) : dom C h .cookieKey = lhash C h [str "cookie-key"] := by
  rw [lhash_eq, show [str "cookie-key"] = Purpose.cookieKey.labels from by decide +kernel]; rfl
theorem dom_peerid (h : HashChoice) : dom C h .peerid = lhash C h [str "peer id"] := by
  rw [lhash_eq, show [str "peer id"] = Purpose.peerid.labels from by decide +kernel]; rfl
theorem dom_biscuitAd (h : HashChoice) : dom C h .biscuitAd = lhash C h [str "biscuit additional data"] := by
  rw [lhash_eq, show [str "biscuit additional data"] = Purpose.biscuitAd.labels from by decide +kernel]; rfl
theorem dom_ckinit (h : HashChoice) : dom C h .ckinit = lhash C h [str "chaining key init"] := by
  rw [lhash_eq, show [str "chaining key init"] = Purpose.ckinit.labels from by decide +kernel]; rfl
theorem dom_mix (h : HashChoice) : dom C h .mix = lhash C h [str "chaining key extract", str "mix"] := by
  rw [lhash_eq, show [str "chaining key extract", str "mix"] = Purpose.mix.labels from by decide +kernel]; rfl
theorem dom_hsEnc (h : HashChoice) : dom C h .hsEnc = lhash C h [str "chaining key extract", str "handshake encryption"] := by
  rw [lhash_eq, show [str "chaining key extract", str "handshake encryption"] = Purpose.hsEnc.labels from by decide +kernel]; rfl
theorem dom_iniEnc (h : HashChoice) : dom C h .iniEnc = lhash C h [str "chaining key extract", str "initiator handshake encryption"] := by
  rw [lhash_eq, show [str "chaining key extract", str "initiator handshake encryption"] = Purpose.iniEnc.labels from by decide +kernel]; rfl
theorem dom_resEnc (h : HashChoice) : dom C h .resEnc = lhash C h [str "chaining key extract", str "responder handshake encryption"] := by
  rw [lhash_eq, show [str "chaining key extract", str "responder handshake encryption"] = Purpose.resEnc.labels from by decide +kernel]; rfl
theorem dom_wg (h : HashChoice) : dom C h .wireguardPsk =
    lhash C h [str "chaining key extract", str "user", str "rosenpass.eu", str "wireguard psk"] := by
  rw [lhash_eq, show [str "chaining key extract", str "user", str "rosenpass.eu", str "wireguard psk"] = Purpose.wireguardPsk.labels from by decide +kernel]; rfl

/-! ### the pieces of the handshake -/

theorem mix_one (h : HashChoice) (ck a : Bytes) :
    Paper.mix C h ck [a] = C.hash h (C.hash h ck (dom C h .mix)) a := by
  rw [Paper.mix, Paper.mix, extractKey, hash_eq, hash_eq, dom_mix]

theorem mix_cons (h : HashChoice) (ck a : Bytes) (as : List Bytes) :
    Paper.mix C h ck (a :: as) = Paper.mix C h (Paper.mix C h ck [a]) as := rfl

theorem core_mix (c : Core) (a : Bytes) : c.mix C a = { c with ck := Paper.mix C c.hc c.ck [a] } := by
  rw [mix_one]; rfl

theorem core_encKey (c : Core) : c.encKey C = extractKey C c.hc c.ck [str "handshake encryption"] := by
  rw [extractKey, hash_eq, ← dom_hsEnc]; rfl

theorem core_encrypt (c : Core) (pt : Bytes) : c.encryptAndMix C pt =
    ((Paper.encryptAndMix C c.hc c.ck pt).1, { c with ck := (Paper.encryptAndMix C c.hc c.ck pt).2 }) := by
  unfold Core.encryptAndMix Paper.encryptAndMix
  rw [core_encKey]
  simp only [core_mix]
  rfl

theorem core_decrypt (c : Core) (ct : Bytes) : c.decryptAndMix C ct =
    (Paper.decryptAndMix C c.hc c.ck ct).map (fun x => (x.1, { c with ck := x.2 })) := by
  unfold Core.decryptAndMix Paper.decryptAndMix
  rw [core_encKey, show Core.nonce0 = List.replicate 12 (0 : UInt8) from rfl]
  cases C.aeadDec (extractKey C c.hc c.ck [str "handshake encryption"]) (List.replicate 12 0) [] ct with
  | none => rfl
  | some pt => simp only [core_mix, Option.map_some]

theorem peerId_eq (h : HashChoice) (spk : Bytes) : peerId C h spk = C.hash h (dom C h .peerid) spk := by
  unfold peerId
  rw [show [str "peer id", spk] = [str "peer id"] ++ [spk] from rfl, lhash_snoc, ← dom_peerid]

theorem biscuitAd_eq (h : HashChoice) (spk a b : Bytes) : Paper.biscuitAd C h spk a b = Verif.biscuitAd C h spk a b := by
  unfold Paper.biscuitAd Verif.biscuitAd
  rw [show [str "biscuit additional data", spk, a, b] = (([str "biscuit additional data"] ++ [spk]) ++ [a]) ++ [b] from rfl,
    lhash_snoc, lhash_snoc, lhash_snoc, ← dom_biscuitAd]; rfl

theorem mac_eq (h : HashChoice) (spk : Bytes) (e : Env) : Paper.mac C h spk e.toMac = macOf C h spk e := by
  unfold Paper.mac macOf
  rw [show [str "mac", spk, e.toMac] = ([str "mac"] ++ [spk]) ++ [e.toMac] from rfl, lhash_snoc, lhash_snoc, ← dom_mac]; rfl

theorem cookie_eq (v : Bytes) (e : Env) : Paper.cookie C v e.toCookie = cookieOf C v e := by
  unfold Paper.cookie cookieOf
  rw [show [str "cookie", v, e.toCookie] = ([str "cookie"] ++ [v]) ++ [e.toCookie] from rfl, lhash_snoc, lhash_snoc, ← dom_cookie]; rfl

theorem cookieValue_eq (s host : Bytes) : Paper.cookieValue C s host = cookieValueFor C s host := by
  unfold Paper.cookieValue cookieValueFor
  rw [show [str "cookie-value", s, host] = ([str "cookie-value"] ++ [s]) ++ [host] from rfl, lhash_snoc, lhash_snoc, ← dom_cookieValue]; rfl

theorem cookieEncrypted_eq (spk n v m : Bytes) : Paper.cookieEncrypted C spk n v m = C.xSeal (cookieKey C spk) n m v := by
  unfold Paper.cookieEncrypted cookieKey Crypto.xSeal
  rw [show [str "cookie-key", spk] = [str "cookie-key"] ++ [spk] from rfl, lhash_snoc, ← dom_cookieKey]; rfl

theorem init_ck (h : HashChoice) (spkr : Bytes) :
    (Core.zero h).init C spkr = { Core.zero h with ck := lhash C h [str "chaining key init", spkr] } := by
  rw [show [str "chaining key init", spkr] = [str "chaining key init"] ++ [spkr] from rfl, lhash_snoc, ← dom_ckinit]; rfl

/-! ### packets -/

/-- the message records of the two files have the same fields -/
def InitHello.rec_ (m : Paper.InitHello) : Verif.InitHello :=
  { sidi := m.sidi, epki := m.epki, sctr := m.sctr, pidiCt := m.pidiC, auth := m.auth }
def RespHello.rec_ (m : Paper.RespHello) : Verif.RespHello :=
  { sidr := m.sidr, sidi := m.sidi, ecti := m.ecti, scti := m.scti, auth := m.auth, biscuitCt := m.biscuitCt }
def InitConf.rec_ (m : Paper.InitConf) : Verif.InitConf :=
  { sidi := m.sidi, sidr := m.sidr, biscuitCt := m.biscuitCt, auth := m.auth }
def ofInitHello (m : Verif.InitHello) : Paper.InitHello :=
  { sidi := m.sidi, epki := m.epki, sctr := m.sctr, pidiC := m.pidiCt, auth := m.auth }
def ofRespHello (m : Verif.RespHello) : Paper.RespHello :=
  { sidr := m.sidr, sidi := m.sidi, ecti := m.ecti, scti := m.scti, auth := m.auth, biscuitCt := m.biscuitCt }
def ofInitConf (m : Verif.InitConf) : Paper.InitConf :=
  { sidi := m.sidi, sidr := m.sidr, biscuitCt := m.biscuitCt, auth := m.auth }

theorem ih_wire (m : Verif.InitHello) : (ofInitHello m).wire = m.encode := by
  simp [InitHello.wire, ofInitHello, Verif.InitHello.encode, List.append_assoc]
theorem rh_wire (m : Verif.RespHello) : (ofRespHello m).wire = m.encode := by
  simp [RespHello.wire, ofRespHello, Verif.RespHello.encode, List.append_assoc]
theorem ic_wire (m : Verif.InitConf) : (ofInitConf m).wire = m.encode := by
  simp [InitConf.wire, ofInitConf, Verif.InitConf.encode, List.append_assoc]

theorem packet_of_sealed {n : Nat} {h : HashChoice} {spk : Bytes} {t : MsgType} {pl : Bytes} {e : Env}
    (S : Sealed C n h spk t pl e) : Packet C h spk t.toU8 pl e.encode := by
  refine ⟨e.reserved, e.cookie, S.wf.1, S.wf.2.2.2, ?_⟩
  have h1 : [t.toU8] ++ e.reserved ++ pl = e.toMac := by
    rw [← S.type, ← S.payload]; rfl
  rw [h1, mac_eq, ← S.mac]; rfl

theorem sealed_of_packet (L : C.Lawful) {h : HashChoice} {spk : Bytes} {t : MsgType} {pl m : Bytes}
    (P : Packet C h spk t.toU8 pl m) : ∃ e, m = e.encode ∧ Sealed C pl.length h spk t pl e := by
  obtain ⟨rsvd, ck, hr, hc, rfl⟩ := P
  let e0 : Env := { msgType := t.toU8, reserved := rsvd, payload := pl, mac := [], cookie := ck }
  have h1 : [t.toU8] ++ rsvd ++ pl = e0.toMac := rfl
  rw [h1, mac_eq]
  have hl : (macOf C h spk e0).length = 16 := by
    unfold macOf HashDomain.mix
    rw [List.length_take, Crypto.hash_len L]; rfl
  exact ⟨{ e0 with mac := macOf C h spk e0 }, rfl, ⟨hr, rfl, hl, hc⟩, rfl, rfl, rfl⟩

/-- what a received datagram of the right size with a valid seal is -/
theorem packet_of_received {n : Nat} {h : HashChoice} {s : Server} {t : MsgType} {rx bs : Bytes} {e : Env}
    (hrx : rx = t.toU8 :: bs) (he : Env.decode n rx = some e) (hc : s.checkSeal C h e = true) :
    Packet C h s.spkm t.toU8 e.payload rx ∧ e.payload.length = n := by
  obtain ⟨hl, rfl⟩ := Env.decode_eq_some he
  have hwf := Env.view_WF hl
  have hm := checkSeal_iff.mp hc
  have hen := Env.encode_view hl
  have ht : (Env.view n rx).msgType = t.toU8 := by rw [hrx]; rfl
  have S : Sealed C n h s.spkm t (Env.view n rx).payload (Env.view n rx) := ⟨hwf, ht, rfl, hm⟩
  have := packet_of_sealed S
  rw [hen] at this
  exact ⟨this, hwf.2.1⟩

end
end Paper

section
variable {C : Crypto}
open Paper

/-! ### the handlers compute the steps of the paper -/

theorem initiation_paper {s : Server} {peer : Peer} {now : Time} {r : Rnd} {ih : Verif.InitHello} {hs : IniHs}
    (hi : s.initiation C peer now r = some (ih, hs)) :
    ∃ eski epki shk sctr, C.eKeygen r.kcoins = some (eski, epki) ∧ C.sEncaps r.scoins peer.spkt = some (shk, sctr) ∧
      let x := Paper.IHI C peer.version.hash peer.spkt s.spkm peer.psk r.sid epki shk sctr
      ofInitHello ih = x.1 ∧ hs.core.ck = x.2 ∧ hs.core.sidi = r.sid ∧ hs.core.hc = peer.version.hash ∧
      hs.eski = eski ∧ hs.epki = epki := by
  unfold initiation at hi
  simp only at hi
  split at hi
  · cases hi
  rename_i eski epki hk
  split at hi
  · cases hi
  rename_i shk sctr he
  refine ⟨eski, epki, shk, sctr, hk, he, ?_⟩
  simp only [init_ck, Core.mixKem, core_mix, core_encrypt, Option.some.injEq, Prod.mk.injEq] at hi
  obtain ⟨rfl, rfl⟩ := hi
  have hpid : s.pidm C peer.version.hash = peerId C peer.version.hash s.spkm := by rw [peerId_eq]; rfl
  simp only [hpid]
  exact ⟨rfl, rfl, trivial, rfl, trivial, trivial⟩

theorem ihr_paper {s : Server} (hix : PeerIdx C s) {ih : Verif.InitHello} {h : HashChoice} {p : Nat} {c : Core} :
    s.ihrVerify C ih h = .ok (p, c) ↔
    ∃ shk pid ck0 ck peer, C.sDecaps s.sskm ih.sctr = some shk ∧
      Paper.IHRid C h s.spkm shk (ofInitHello ih) = some (pid, ck0) ∧
      s.peers[p]? = some peer ∧ pidt C peer = pid ∧
      Paper.IHRauth C h peer.spkt peer.psk ck0 (ofInitHello ih) = some ck ∧
      c = { sidi := ih.sidi, sidr := List.replicate 4 0, ck := ck, hc := h } := by
  unfold ihrVerify
  simp only [init_ck, Core.mixKem, core_mix, core_decrypt, Option.some.injEq, Prod.mk.injEq]
  cases hd : C.sDecaps s.sskm ih.sctr with
  | none =>
    constructor
    · intro h; cases h
    · rintro ⟨shk, _, _, _, _, h1, -⟩; cases h1
  | some shk =>
    simp only
    have e1 : decryptAndMix C (Core.zero h).hc
            (Paper.mix C (Core.zero h).hc
              (Paper.mix C (Core.zero h).hc
                (Paper.mix C (Core.zero h).hc
                  (Paper.mix C (Core.zero h).hc
                    (Paper.mix C (Core.zero h).hc (lhash C h [str "chaining key init", s.spkm]) [ih.sidi]) [ih.epki])
                  [s.spkm])
                [shk])
              [ih.sctr])
            ih.pidiCt = Paper.IHRid C h s.spkm shk (ofInitHello ih) := rfl
    rw [e1]
    cases h1 : Paper.IHRid C h s.spkm shk (ofInitHello ih) with
    | none =>
      simp only [Option.map_none]
      constructor
      · intro h; cases h
      · rintro ⟨shk', _, _, _, _, h2, h3, -⟩; cases h2; rw [h1] at h3; cases h3
    | some x =>
      obtain ⟨pid, ck0⟩ := x
      simp only [Option.map_some]
      cases h2 : s.findPeer pid with
      | none =>
        constructor
        · intro h; cases h
        · rintro ⟨shk', pid', ck0', ck, peer, h3, h4, h5, h6, -⟩
          cases h3; rw [h1] at h4; cases h4
          have := (hix pid p).mpr ⟨peer, h5, h6⟩
          unfold findPeer at h2; rw [h2] at this; cases this
      | some q =>
        obtain ⟨peer, hq, hpid⟩ := (hix pid q).mp h2
        simp only [hq]
        have e2 : decryptAndMix C (Core.zero h).hc (Paper.mix C (Core.zero h).hc (Paper.mix C (Core.zero h).hc ck0 [peer.spkt]) [peer.psk]) ih.auth =
          decryptAndMix C h (Paper.mix C h ck0 [peer.spkt, peer.psk]) (ofInitHello ih).auth := rfl
        rw [e2]
        constructor
        · intro hok
          cases h3 : decryptAndMix C h (Paper.mix C h ck0 [peer.spkt, peer.psk]) (ofInitHello ih).auth with
          | none => rw [h3] at hok; cases hok
          | some y =>
            rw [h3] at hok
            simp only [Option.map_some, Except.ok.injEq, Prod.mk.injEq] at hok
            obtain ⟨rfl, rfl⟩ := hok
            exact ⟨shk, pid, ck0, y.2, peer, rfl, h1, hq, hpid, (by unfold IHRauth; rw [h3]; rfl), rfl⟩
        · rintro ⟨shk', pid', ck0', ck, peer', h3, h4, h5, h6, h7, h8⟩
          cases h3; rw [h1] at h4; cases h4
          have hpq : q = p := by
            have := (hix pid p).mpr ⟨peer', h5, h6⟩
            unfold findPeer at h2; rw [h2] at this; cases this; rfl
          subst hpq
          rw [hq] at h5; cases h5
          unfold IHRauth at h7
          rw [Option.map_eq_some_iff] at h7
          obtain ⟨y, h9, rfl⟩ := h7
          rw [h9, h8]; rfl

theorem rhr_paper {s s' : Server} {ih : Verif.InitHello} {p q : Nat} {peer : Peer} {c : Core} {now : Time} {r : Rnd} {rh : Verif.RespHello}
    (hv : peer.version.hash = c.hc) (hsid : c.sidi = ih.sidi) (hok : s.rhr C ih p peer c now r = (.ok (q, rh), s')) :
    ∃ eshk ecti sshk scti b, C.eEncaps r.ecoins ih.epki = some (eshk, ecti) ∧ C.sEncaps r.scoins peer.spkt = some (sshk, scti) ∧
      ofRespHello rh = (Paper.RHR C c.hc c.ck s.spkm peer.spkt ih.sidi r.sid ih.epki eshk ecti sshk scti
        (s'.biscuitKeys.get b).value (biscuitNonce r.nonce b) s.biscuitCtr).1 := by
  cases he : C.eEncaps r.ecoins ih.epki with
  | none => simp [rhr, he] at hok
  | some x =>
    cases hs : C.sEncaps r.scoins peer.spkt with
    | none => simp [rhr, he, hs] at hok
    | some y =>
      obtain ⟨eshk, ecti⟩ := x
      obtain ⟨sshk, scti⟩ := y
      unfold rhr at hok
      simp only [he, hs, storeBiscuit, Core.mixKem, core_mix, core_encrypt, Prod.mk.injEq, Except.ok.injEq] at hok
      obtain ⟨⟨-, rfl⟩, rfl⟩ := hok
      refine ⟨eshk, ecti, sshk, scti, (({ s with biscuitCtr := ConstantTime.increment s.biscuitCtr } : Server).activeBiscuitKey now r.bkey).1, rfl, rfl, ?_⟩
      have hpid : pidt C peer = peerId C c.hc peer.spkt := by rw [peerId_eq, ← hv]; rfl
      simp only [hv, hpid, hsid, Paper.RHR, Paper.biscuit, biscuitAd_eq, Biscuit.encode, List.append_assoc]
      rfl

theorem rhi_paper {s : Server} {rh : Verif.RespHello} {p : Nat} {c : Core} {ic : Verif.InitConf}
    (hok : s.rhiVerify C rh = .ok (p, c, ic)) :
    ∃ peer hs eshk sshk ck, s.peers[p]? = some peer ∧ peer.handshake = some hs ∧ hs.core.sidi = rh.sidi ∧ hs.next = .respHello ∧
      C.eDecaps hs.eski rh.ecti = some eshk ∧ C.sDecaps s.sskm rh.scti = some sshk ∧
      Paper.RHI C hs.core.hc hs.core.ck hs.epki s.spkm eshk sshk (ofRespHello rh) = some ck ∧
      ofInitConf ic = (Paper.ICI C hs.core.hc ck rh.sidi rh.sidr rh.biscuitCt).1 ∧
      c = { sidi := rh.sidi, sidr := rh.sidr, ck := (Paper.ICI C hs.core.hc ck rh.sidi rh.sidr rh.biscuitCt).2, hc := hs.core.hc } := by
  obtain ⟨hs, eshk, sshk, pt, c1, h1, h2, h3, h4, h5, h6, h7, h8⟩ := rhiVerify_ok hok
  have hp : ∃ peer, s.peers[p]? = some peer ∧ peer.handshake = some hs := by
    unfold Server.handshake at h2
    cases hp : s.peers[p]? with
    | none => rw [hp] at h2; cases h2
    | some peer => rw [hp] at h2; exact ⟨peer, rfl, h2⟩
  obtain ⟨peer, hp, hh⟩ := hp
  have hsid : hs.core.sidi = rh.sidi := by
    unfold lookupHandshake at h1
    split at h1
    · cases h1
    · split at h1
      · rename_i hq
        cases h1
        rw [h2] at hq
        exact Option.some.inj hq
      · cases h1
  simp only [Core.mixKem, core_mix, core_decrypt] at h6
  rw [Option.map_eq_some_iff] at h6
  obtain ⟨y, h6, h9⟩ := h6
  cases h9
  have e1 : Paper.RHI C hs.core.hc hs.core.ck hs.epki s.spkm eshk sshk (ofRespHello rh) = some y.2 := by
    have : Paper.RHI C hs.core.hc hs.core.ck hs.epki s.spkm eshk sshk (ofRespHello rh) =
      (Paper.decryptAndMix C hs.core.hc (Paper.mix C hs.core.hc (Paper.mix C hs.core.hc (Paper.mix C hs.core.hc (Paper.mix C hs.core.hc
        (Paper.mix C hs.core.hc (Paper.mix C hs.core.hc (Paper.mix C hs.core.hc (Paper.mix C hs.core.hc (Paper.mix C hs.core.hc
          hs.core.ck [rh.sidr]) [rh.sidi]) [hs.epki]) [eshk]) [rh.ecti]) [s.spkm]) [sshk]) [rh.scti]) [rh.biscuitCt]) rh.auth).map Prod.snd := rfl
    rw [this, h6]; rfl
  refine ⟨peer, hs, eshk, sshk, y.2, hp, hh, hsid, h3, h4, h5, e1, ?_, ?_⟩
  · rw [h8]
    simp only [core_mix, core_encrypt]
    rfl
  · rw [h7]
    simp only [core_mix, core_encrypt, hsid]
    rfl

theorem icr_paper {s : Server} (hix : PeerIdx C s) {ic : Verif.InitConf} {h : HashChoice} {p : Nat} {no : Bytes} {c : Core}
    (hok : s.icrVerify C ic h = .ok (p, no, c)) :
    ∃ peer bck, s.peers[p]? = some peer ∧
      Paper.openBiscuit C h (s.biscuitKeys.get (biscuitKeyBit ic.biscuitCt)).value s.spkm (ofInitConf ic) = some (pidt C peer, no, bck) ∧
      leNat peer.biscuitUsed < leNat no ∧
      (peer.version.hash = h → ∃ ck, Paper.ICR C h bck (ofInitConf ic) = some ck ∧
        c = { sidi := ic.sidi, sidr := ic.sidr, ck := ck, hc := h }) := by
  obtain ⟨c0, peer, pt, o, h1, h2, h3, h4, h5⟩ := icrVerify_ok hok
  obtain ⟨bpt, peer', h6, h7, h8, h9, h10⟩ := loadBiscuit_ok h1
  rw [h3] at h8; cases h8
  obtain ⟨peer', h8, hpid⟩ := (hix _ p).mp h7
  rw [h3] at h8; cases h8
  have hopen : Paper.openBiscuit C h (s.biscuitKeys.get (biscuitKeyBit ic.biscuitCt)).value s.spkm (ofInitConf ic) =
      some (pidt C peer, no, (Biscuit.decode bpt).ck) := by
    unfold Crypto.xOpen at h6
    split at h6
    · cases h6
    unfold openBiscuit
    rw [biscuitAd_eq]
    simp only [ofInitConf, h6, hpid, h9, Biscuit.decode, List.drop_drop]
  refine ⟨peer, (Biscuit.decode bpt).ck, h3, hopen, ?_, ?_⟩
  · exact compare_pos h4 h5
  · intro hv
    subst hv
    subst h10
    simp only [core_mix, core_encrypt, core_decrypt] at h2
    rw [Option.map_eq_some_iff] at h2
    obtain ⟨y, h2, h11⟩ := h2
    cases h11
    have e1 : Paper.ICR C peer.version.hash (Biscuit.decode bpt).ck (ofInitConf ic) = some y.2 := by
      have : Paper.ICR C peer.version.hash (Biscuit.decode bpt).ck (ofInitConf ic) =
        (Paper.decryptAndMix C peer.version.hash (Paper.mix C peer.version.hash (Paper.mix C peer.version.hash
          (Paper.encryptAndMix C peer.version.hash (Paper.mix C peer.version.hash (Biscuit.decode bpt).ck [ic.biscuitCt]) []).2 [ic.sidi]) [ic.sidr]) ic.auth).map Prod.snd := rfl
      rw [this, h2]; rfl
    exact ⟨y.2, e1, rfl⟩

theorem enterLive_paper (c : Core) (now : Time) (role : Role) :
    let x := c.enterLive C now role c.hc
    x.ck = c.ck ∧ x.hc = c.hc ∧ x.role = role ∧
    (role = .initiator → x.txkm = txki C c.hc c.ck ∧ x.txkt = txkr C c.hc c.ck ∧ x.sidm = c.sidi ∧ x.sidt = c.sidr) ∧
    (role = .responder → x.txkm = txkr C c.hc c.ck ∧ x.txkt = txki C c.hc c.ck ∧ x.sidm = c.sidr ∧ x.sidt = c.sidi) := by
  have h1 : HashDomain.mix C c.hc c.ck (dom C c.hc .iniEnc) = txki C c.hc c.ck := by
    unfold txki extractKey; rw [hash_eq, ← dom_iniEnc]; rfl
  have h2 : HashDomain.mix C c.hc c.ck (dom C c.hc .resEnc) = txkr C c.hc c.ck := by
    unfold txkr extractKey; rw [hash_eq, ← dom_resEnc]; rfl
  cases role <;> unfold Core.enterLive <;> simp only [h1, h2] <;> simp

/-- The key a session exports for the default protocol extension is the paper's WireGuard key. -/
theorem osk_paper {s : Server} {p : Nat} {peer : Peer} {x : Session} (hp : s.peers[p]? = some peer) (hx : peer.session = some x)
    (hv : x.hc = peer.version.hash) (hd : peer.osk = .wireguardPsk) : s.osk C p = .ok (Paper.osk C x.hc x.ck) := by
  unfold Server.osk oskWith
  simp only [hp, hx, hd, OskDomain.compress, ← hv]
  unfold Paper.osk exportKey extractKey
  rw [hash_eq, ← dom_wg]; rfl

/-- What is left behind by a key exchange with chaining key `ck`: a session of that role with the
paper's transmission keys, which exports the paper's WireGuard key. -/
structure PaperSession (C : Crypto) (h : HashChoice) (s : Server) (p : Nat) (role : Role) (ck sidi sidr : Bytes) : Prop where
  keys : ∃ peer x, s.peers[p]? = some peer ∧ peer.session = some x ∧ x.role = role ∧ x.ck = ck ∧
    (role = .initiator → x.txkm = txki C h ck ∧ x.txkt = txkr C h ck ∧ x.sidm = sidi ∧ x.sidt = sidr) ∧
    (role = .responder → x.txkm = txkr C h ck ∧ x.txkt = txki C h ck ∧ x.sidm = sidr ∧ x.sidt = sidi) ∧
    (peer.osk = .wireguardPsk → s.osk C p = .ok (Paper.osk C h ck))

theorem castTx_WF {n : Nat} {tx : Bytes} {e : Env} (hc : castTx n tx = some e) : e.WF n := by
  unfold castTx at hc
  split at hc
  · cases hc
  · simp only [Option.some.injEq] at hc
    rw [← hc]; apply Env.view_WF; simp; omega

/-- **C131 (1)** Starting a handshake sends the InitHello of steps IHI1–IHI8 in an envelope sealed for
the peer, and remembers the chaining key, session ID and ephemeral key pair of those steps. -/
theorem initiates_as_in_paper (L : C.Lawful) {s s' : Server} {p : Nat} {now : Time} {r : Rnd} {tx m : Bytes} (hr : r.WF C)
    (hok : s.initiate C p now r tx = (.ok m, s')) :
    ∃ peer eski epki shk sctr hs, s.peers[p]? = some peer ∧ C.eKeygen r.kcoins = some (eski, epki) ∧
      C.sEncaps r.scoins peer.spkt = some (shk, sctr) ∧ s'.handshake p = some hs ∧
      let x := Paper.IHI C peer.version.hash peer.spkt s.spkm peer.psk r.sid epki shk sctr
      Packet C peer.version.hash peer.spkt 0x81 x.1.wire m ∧
      hs.core.ck = x.2 ∧ hs.core.sidi = r.sid ∧ hs.core.hc = peer.version.hash ∧ hs.eski = eski ∧ hs.epki = epki := by
  rcases initiate_cases C s p now r tx with ⟨x, hx⟩ | ⟨peer, ih, hs, e, hp, hi, hc, hidx, hx⟩
  · rw [hx] at hok; cases hok
  · simp only at hx
    rw [hx, Prod.mk.injEq, Except.ok.injEq] at hok
    obtain ⟨hm, hs'⟩ := hok
    have hwf := initiation_WF L hr hi
    have hew := castTx_WF hc
    have S := sealMsg_sealed (n := InitHello.size C) L { peer with initReq := false, handshake := some hs } .initHello
      { e with payload := ih.encode } ⟨hew.1, InitHello.encode_length hwf, hew.2.2.1, hew.2.2.2⟩
    have P := packet_of_sealed S
    obtain ⟨eski, epki, shk, sctr, h1, h2, h3, h4, h5, h6, h7, h8⟩ := initiation_paper hi
    have hget : ∃ hs1, s'.handshake p = some hs1 ∧ hs1.core = hs.core ∧ hs1.eski = hs.eski ∧ hs1.epki = hs.epki := by
      rw [← hs']
      unfold Server.handshake
      rw [modHs_get, if_pos rfl, hsPut_get, if_pos rfl, hp]
      exact ⟨_, rfl, rfl, rfl, rfl⟩
    obtain ⟨hs1, g1, g2, g3, g4⟩ := hget
    refine ⟨peer, eski, epki, shk, sctr, hs1, hp, h1, h2, g1, ?_⟩
    simp only
    rw [← h3, ih_wire, ← hm, g2, g3, g4]
    exact ⟨P, h4, h5, h6, h7, h8⟩

/-- **C131 (2)** An InitHello that is answered was a packet sealed for this server, whose contents pass
steps IHR1–IHR8 with the keys registered for the peer named in it and that peer's hash function; the
answer is the RespHello of steps RHR1–RHR7, sealed for that peer. -/
theorem answers_init_hello_as_in_paper (L : C.Lawful) {s s' : Server} (hreach : Reachable C s) {rx tx : Bytes} {now : Time}
    {r : HashChoice → Rnd} (hr : ∀ h, (r h).WF C) {x : Option Nat} {m : Bytes} (hrx : rx.head? = some 0x81)
    (hok : s.handleMsg C rx tx now r = (.ok ⟨x, some m⟩, s')) :
    ∃ (p : Nat) (peer : Peer) (ih : Paper.InitHello) (shk ck0 ck : Bytes), s.peers[p]? = some peer ∧
      let h := peer.version.hash
      Packet C h s.spkm 0x81 ih.wire rx ∧
      (ih.sidi.length = 4 ∧ ih.epki.length = C.epkLen ∧ ih.sctr.length = C.sctLen ∧ ih.pidiC.length = 48 ∧ ih.auth.length = 16) ∧
      C.sDecaps s.sskm ih.sctr = some shk ∧
      Paper.IHRid C h s.spkm shk ih = some (Paper.peerId C h peer.spkt, ck0) ∧
      Paper.IHRauth C h peer.spkt peer.psk ck0 ih = some ck ∧
      ∃ eshk ecti sshk scti b, C.eEncaps (r h).ecoins ih.epki = some (eshk, ecti) ∧ C.sEncaps (r h).scoins peer.spkt = some (sshk, scti) ∧
        Packet C h peer.spkt 0x82 (Paper.RHR C h ck s.spkm peer.spkt ih.sidi (r h).sid ih.epki eshk ecti sshk scti
          (s'.biscuitKeys.get b).value (biscuitNonce (r h).nonce b) s.biscuitCtr).1.wire m := by
  have hix := Reachable.peerIdx L hreach
  rcases handleMsg_dispatch C s rx tx now r with ⟨y, hx, -⟩ | ⟨t, bs, out, hrx', hout, hh⟩
  · rw [hx] at hok; cases hok
  have ht : t = .initHello := by
    rw [hrx'] at hrx
    have : t.toU8 = MsgType.initHello.toU8 := Option.some.inj hrx
    exact MsgType.toU8_inj this
  subst ht
  rcases hh with ⟨-, e, he, hh⟩ | ⟨h1, -⟩ | ⟨h1, -⟩ | ⟨h1, -⟩ | ⟨h1, -⟩
  · rw [hh] at hok
    rcases msgInitHello_cases C s e out now r with ⟨y, hx⟩ | ⟨h, p, c, peer, rh, R⟩
    · rw [hx] at hok; cases hok
    · rw [hok] at R
      rcases R.result with ⟨h1, -⟩ | ⟨h1, -⟩ | ⟨h1, h2, h3⟩
      · cases h1
      · cases h1
      · rw [Prod.mk.injEq, Except.ok.injEq] at h1
        obtain ⟨h4, h5⟩ := h1
        obtain ⟨P, hpl⟩ := packet_of_received hrx' he h3
        obtain ⟨shk, pid, ck0, ck, peer', g1, g2, g3, g4, g5, g6⟩ := (ihr_paper hix).mp R.verify
        rw [R.hpeer] at g3; cases g3
        have hwf := InitHello.decode_WF hpl
        obtain ⟨eshk, ecti, sshk, scti, b, f1, f2, f3⟩ := rhr_paper (by rw [g6]; exact h2) (by rw [g6]) R.answer
        obtain ⟨-, c', F⟩ := rhr_facts L (hr h) (by rw [g6]) hwf (Reachable.ctrLen L hreach) R.answer
        have hew := castTx_WF hout
        have S := sealMsg_sealed (n := RespHello.size C) L peer .respHello
          { out with payload := rh.encode } ⟨hew.1, RespHello.encode_length F.wf, hew.2.2.1, hew.2.2.2⟩
        have P2 := packet_of_sealed S
        simp only [MsgResult.mk.injEq, Option.some.injEq] at h4
        rw [← h4.2] at P2
        have hpid : pid = Paper.peerId C h peer.spkt := by rw [← g4, peerId_eq, ← h2]; rfl
        subst h2
        refine ⟨p, peer, ofInitHello (InitHello.decode C e.payload), shk, ck0, ck, R.hpeer, ?_, hwf, g1, ?_, g5, eshk, ecti, sshk, scti, b, f1, f2, ?_⟩
        · rw [ih_wire, InitHello.encode_decode]; exact P
        · rw [← hpid]; exact g2
        · rw [g6] at f3
          rw [← h5] at f3
          have f4 := rh_wire rh
          rw [f3] at f4
          simp only at f4
          rw [show (ofInitHello (InitHello.decode C e.payload)).sidi = (InitHello.decode C e.payload).sidi from rfl,
            show (ofInitHello (InitHello.decode C e.payload)).epki = (InitHello.decode C e.payload).epki from rfl, f4]
          exact P2
  all_goals cases h1

/-- **C131 (3)** A RespHello that completes a key exchange was a packet sealed for this server that passes
steps RHI1–RHI7 with the pending handshake's chaining key and ephemeral key pair; the answer is the
InitConf of steps ICI3–ICI4, sealed for the peer, and the session has the keys of `enter_live`. -/
theorem accepts_resp_hello_as_in_paper (L : C.Lawful) {s s' : Server} (hreach : Reachable C s) {rx tx : Bytes} {now : Time}
    {r : HashChoice → Rnd} {p : Nat} {m : Option Bytes} (hrx : rx.head? = some 0x82)
    (hok : s.handleMsg C rx tx now r = (.ok ⟨some p, m⟩, s')) :
    ∃ (peer : Peer) (hs : IniHs) (rh : Paper.RespHello) (eshk sshk ck m3 : Bytes), s.peers[p]? = some peer ∧ peer.handshake = some hs ∧
      let h := peer.version.hash
      Packet C h s.spkm 0x82 rh.wire rx ∧
      (rh.sidr.length = 4 ∧ rh.sidi.length = 4 ∧ rh.ecti.length = C.ectLen ∧ rh.scti.length = C.sctLen ∧ rh.auth.length = 16 ∧ rh.biscuitCt.length = 116) ∧
      rh.sidi = hs.core.sidi ∧
      C.eDecaps hs.eski rh.ecti = some eshk ∧ C.sDecaps s.sskm rh.scti = some sshk ∧
      Paper.RHI C h hs.core.ck hs.epki s.spkm eshk sshk rh = some ck ∧
      let y := Paper.ICI C h ck rh.sidi rh.sidr rh.biscuitCt
      m = some m3 ∧ Packet C h peer.spkt 0x83 y.1.wire m3 ∧ PaperSession C h s' p .initiator y.2 rh.sidi rh.sidr := by
  rcases handleMsg_exchanged hok with ⟨e, out, c, ic, peer, hs, bs, hrx', he, hout, hseal, R⟩ | ⟨e, out, h', s0, no, c, peer, bs, hrx', -, -, -, -, -, -, R⟩
  · obtain ⟨P, hpl⟩ := packet_of_received hrx' he hseal
    obtain ⟨peer', hs', eshk, sshk, ck, g1, g2, g3, g4, g5, g6, g7, g8, g9⟩ := rhi_paper R.verify
    rw [R.hpeer] at g1; cases g1
    rw [R.hhs] at g2; cases g2
    have hwf := RespHello.decode_WF hpl
    have hhc := ((Reachable.peerOk L hreach) p peer R.hpeer |>.hs hs R.hhs).1
    rcases R.result with ⟨h1, -⟩ | ⟨h1, -⟩ | ⟨h1, -⟩
    · cases h1
    · cases h1
    · rw [Prod.mk.injEq, Except.ok.injEq, MsgResult.mk.injEq] at h1
      obtain ⟨⟨-, hm⟩, hs'⟩ := h1
      have hew := castTx_WF hout
      have hic : ic.WF := by
        obtain ⟨hs2, eshk2, sshk2, pt2, c2, -, -, -, -, -, -, -, k8⟩ := rhiVerify_ok R.verify
        rw [k8]
        exact ⟨hwf.2.1, hwf.1, hwf.2.2.2.2.2, by simp [Core.encryptAndMix, L.aead_len]⟩
      have S := sealMsg_sealed (n := InitConf.size) L { peer with session := some (c.enterLive C now .initiator peer.version.hash), handshake := some { hs with core := hs.core.erase, next := .respConf } } .initConf
        { out with payload := ic.encode } ⟨hew.1, InitConf.encode_length hic, hew.2.2.1, hew.2.2.2⟩
      have P2 := packet_of_sealed S
      rw [hhc] at g7 g8 g9
      have hlive := enterLive_paper (C := C) c now .initiator
      have hg : ∀ f, ((s.accepted p (c.enterLive C now .initiator peer.version.hash)).modHs p f).peers[p]?.map (·.session) =
          some (some (c.enterLive C now .initiator peer.version.hash)) := by
        intro f
        rw [modHs_get, if_pos rfl, accepted_get, if_pos rfl, R.hpeer]; rfl
      have hg2 : ∀ f, ((s.accepted p (c.enterLive C now .initiator peer.version.hash)).modHs p f).peers[p]?.map (·.version) =
          some peer.version := by
        intro f
        rw [modHs_get, if_pos rfl, accepted_get, if_pos rfl, R.hpeer]; rfl
      have hg' : s'.peers[p]?.map (·.session) = some (some (c.enterLive C now .initiator peer.version.hash)) := by
        rw [hs']; exact hg _
      have hg2' : s'.peers[p]?.map (·.version) = some peer.version := by
        rw [hs']; exact hg2 _
      rw [Option.map_eq_some_iff] at hg' hg2'
      obtain ⟨q, hq, hqs⟩ := hg'
      obtain ⟨q2, hq2, hqv⟩ := hg2'
      rw [hq] at hq2; cases hq2
      have hc : c.hc = peer.version.hash := by rw [g9]
      rw [← hc] at hqs
      obtain ⟨l1, l2, l3, l4, l5⟩ := hlive
      refine ⟨peer, hs, ofRespHello (RespHello.decode C e.payload), eshk, sshk, ck, _, R.hpeer, R.hhs, ?_, hwf, g3.symm, g5, g6, g7, hm, ?_, ?_⟩
      · rw [rh_wire, RespHello.encode_decode]; exact P
      · have g8' : (Paper.ICI C peer.version.hash ck (RespHello.decode C e.payload).sidi (RespHello.decode C e.payload).sidr (RespHello.decode C e.payload).biscuitCt).1.wire = ic.encode := by
          rw [← g8, ic_wire]
        show Packet C _ _ _ (Paper.ICI C peer.version.hash ck (RespHello.decode C e.payload).sidi (RespHello.decode C e.payload).sidr (RespHello.decode C e.payload).biscuitCt).1.wire _
        rw [g8']
        exact P2
      · refine ⟨q, _, hq, hqs, l3, ?_, ?_, ?_, ?_⟩
        · rw [l1, g9]; rfl
        · intro _
          obtain ⟨k1, k2, k3, k4⟩ := l4 rfl
          rw [k1, k2, k3, k4, g9]
          exact ⟨rfl, rfl, rfl, rfl⟩
        · intro h; cases h
        · intro hd
          rw [osk_paper hq hqs (by rw [l2, hc, hqv]) hd, l1, l2, g9]; rfl
  · rw [hrx'] at hrx; cases hrx

/-- **C131 (4)** An InitConf that completes a key exchange was a packet sealed for this server whose
biscuit opens under a biscuit key of the server, names the peer, carries a number above the last one
accepted, and passes steps ICR1–ICR5; the session has the keys of `enter_live`, and the answer is the
first EmptyData of that session, sealed for the peer. -/
theorem accepts_init_conf_as_in_paper (L : C.Lawful) {s s' : Server} (hreach : Reachable C s) {rx tx : Bytes} {now : Time}
    {r : HashChoice → Rnd} {p : Nat} {m : Option Bytes} (hrx : rx.head? = some 0x83)
    (hok : s.handleMsg C rx tx now r = (.ok ⟨some p, m⟩, s')) :
    ∃ (peer : Peer) (ic : Paper.InitConf) (b : Bool) (no bck ck m4 : Bytes), s.peers[p]? = some peer ∧
      let h := peer.version.hash
      Packet C h s.spkm 0x83 ic.wire rx ∧
      (ic.sidi.length = 4 ∧ ic.sidr.length = 4 ∧ ic.biscuitCt.length = 116 ∧ ic.auth.length = 16) ∧
      Paper.openBiscuit C h (s.biscuitKeys.get b).value s.spkm ic = some (Paper.peerId C h peer.spkt, no, bck) ∧
      leNat peer.biscuitUsed < leNat no ∧
      Paper.ICR C h bck ic = some ck ∧
      PaperSession C h s' p .responder ck ic.sidi ic.sidr ∧
      m = some m4 ∧ Packet C h peer.spkt 0x84 (Paper.emptyData C (Paper.txkr C h ck) ic.sidi) m4 := by
  rcases handleMsg_exchanged hok with ⟨e, out, c, ic, peer, hs, bs, hrx', he, hout, hseal, R⟩ | ⟨e, out, h, s0, no, c, peer, bs, hrx', he, hout, hk, hA, hv, hseal, R⟩
  · rw [hrx'] at hrx; cases hrx
  · obtain ⟨G, hidx, hback⟩ := AttemptState.facts hA
    have hix0 := AttemptState.peerIdx hA (Reachable.peerIdx L hreach)
    obtain ⟨P, hpl⟩ := packet_of_received hrx' he hseal
    have hwf := InitConf.decode_WF hpl
    obtain ⟨peer', bck, g1, g2, g3, g4⟩ := icr_paper hix0 R.verify
    rw [R.hpeer] at g1; cases g1
    obtain ⟨ck, g5, g6⟩ := g4 hv
    obtain ⟨peer0, k1, k2, k3, k4, k5⟩ := hback p peer R.hpeer
    rcases R.result with ⟨⟨x, -, h1⟩, -⟩ | ⟨h1, -⟩ | ⟨h1, -⟩ | ⟨h1, -⟩ | ⟨s2, h1, hki, -⟩
    · cases h1
    · cases h1
    · cases h1
    · cases h1
    · rw [Prod.mk.injEq, Except.ok.injEq, MsgResult.mk.injEq] at h1
      obtain ⟨⟨-, hm⟩, hs'⟩ := h1
      subst hs'
      have hg := knownInsert_upd hki p
      rw [if_pos rfl, confirmed_get, if_pos rfl, R.hpeer] at hg
      have hew := castTx_WF hout
      have hlive := enterLive_paper (C := C) c now .responder
      have hc : c.hc = peer.version.hash := by rw [g6, hv]
      rw [hc] at hlive
      obtain ⟨l1, l2, l3, l4, l5⟩ := hlive
      obtain ⟨m1, m2, m3, m4⟩ := l5 rfl
      have hack : (ackOf C (c.enterLive C now .responder peer.version.hash)).encode = Paper.emptyData C (Paper.txkr C peer.version.hash ck) (InitConf.decode e.payload).sidi := by
        have hn : (c.enterLive C now .responder peer.version.hash).txnm = 0 := rfl
        unfold ackOf EmptyData.encode Paper.emptyData
        simp only [m1, m4, hn]
        rw [show toLE 8 0 = List.replicate 8 (0 : UInt8) from by decide, List.append_assoc, g6]
        rfl
      have hackL : (ackOf C (c.enterLive C now .responder peer.version.hash)).encode.length = EmptyData.size := by
        rw [hack]; unfold Paper.emptyData
        simp only [List.length_append, List.length_replicate, L.aead_len, hwf.1, List.length_nil]; rfl
      have S := sealMsg_sealed (n := EmptyData.size) L { peer with biscuitUsed := no, session := some { c.enterLive C now .responder peer.version.hash with txnm := (c.enterLive C now .responder peer.version.hash).txnm + 1 }, handshake := none, known := some { receivedAt := now, requestMac := s0.knownHash C e, response := { out with payload := (ackOf C (c.enterLive C now .responder peer.version.hash)).encode } } } .emptyData
        { out with payload := (ackOf C (c.enterLive C now .responder peer.version.hash)).encode } ⟨hew.1, hackL, hew.2.2.1, hew.2.2.2⟩
      have P2 := packet_of_sealed S
      have hver : peer0.version = peer.version := k2.2.2.1.symm
      have hspk : peer0.spkt = peer.spkt := k2.2.1.symm
      have hpid : pidt C peer = Paper.peerId C h peer.spkt := by rw [peerId_eq, ← hv]; rfl
      have hsp : s0.spkm = s.spkm := G.spkm
      refine ⟨peer0, ofInitConf (InitConf.decode e.payload), biscuitKeyBit (InitConf.decode e.payload).biscuitCt, no, bck, ck, _, k1, ?_, hwf, ?_, ?_, ?_, ?_, hm, ?_⟩
      · rw [ic_wire, InitConf.encode_decode, hver, hv, ← hsp]; exact P
      · rw [hver, hv, hspk, ← hpid, ← hsp, ← G.biscuitKeys]; exact g2
      · exact Nat.lt_of_le_of_lt k5 g3
      · rw [hver, hv]; exact g5
      · refine ⟨_, _, hg, rfl, rfl, ?_, ?_, ?_, ?_⟩
        · show c.ck = ck
          rw [g6]
        · intro h; cases h
        · intro _
          rw [hver]
          refine ⟨?_, ?_, ?_, ?_⟩
          · show (c.enterLive C now .responder peer.version.hash).txkm = _
            rw [m1, g6]
          · show (c.enterLive C now .responder peer.version.hash).txkt = _
            rw [m2, g6]
          · show (c.enterLive C now .responder peer.version.hash).sidm = _
            rw [m3, g6]; rfl
          · show (c.enterLive C now .responder peer.version.hash).sidt = _
            rw [m4, g6]; rfl
        · intro hd
          have := osk_paper (C := C) hg rfl (by show c.hc = peer.version.hash; exact hc) hd
          rw [this]
          show Except.ok (Paper.osk C c.hc c.ck) = _
          rw [hver, hv, g6]
      · rw [hspk, hver]
        show Packet C _ _ _ (Paper.emptyData C (Paper.txkr C peer.version.hash ck) (InitConf.decode e.payload).sidi) _
        rw [← hack]
        exact P2

end

/-! Each of the four situations occurs in the toy handshake, with either hash function. -/
example (v : Version) : (Ex.c1 v).1 = .ok (Ex.m1 v) := by cases v <;> decide +kernel
example (v : Version) : (Ex.m1 v).head? = some 0x81 ∧ (Ex.c2 v).1 = .ok ⟨none, some (Ex.m2 v)⟩ := by
  cases v <;> decide +kernel
example (v : Version) : (Ex.m2 v).head? = some 0x82 ∧ (Ex.c3 v).1 = .ok ⟨some 0, some (Ex.m3 v)⟩ := by
  cases v <;> decide +kernel
example (v : Version) : (Ex.m3 v).head? = some 0x83 ∧ (Ex.c4 v).1 = .ok ⟨some 0, some (Ex.m4 v)⟩ := by
  cases v <;> decide +kernel

end Verif
