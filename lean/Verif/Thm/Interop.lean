import Verif.Thm.Paper
/-
C132: the code interoperates with any implementation of the white paper. The other party is given by
the functions of `Verif.Paper` alone: it need not run this code. Together with C131 (what the code
does is what the paper says) this is the converse: what the paper says is accepted by the code.
-/
namespace Verif
open HashDomain Server

namespace Paper
section
variable {C : Crypto}

/-! ### the paper's two sides fit together -/

theorem decrypt_encrypt_mix (L : C.Lawful) (h : HashChoice) (ck pt : Bytes) :
    decryptAndMix C h ck (encryptAndMix C h ck pt).1 = some (pt, (encryptAndMix C h ck pt).2) := by
  unfold decryptAndMix encryptAndMix
  simp only [L.aead_dec_enc]

theorem IHR_IHI (L : C.Lawful) (h : HashChoice) (spkr spki psk sidi epki shk sctr : Bytes) :
    ∃ ck0, IHRid C h spkr shk (IHI C h spkr spki psk sidi epki shk sctr).1 = some (peerId C h spki, ck0) ∧
      IHRauth C h spki psk ck0 (IHI C h spkr spki psk sidi epki shk sctr).1 = some (IHI C h spkr spki psk sidi epki shk sctr).2 := by
  refine ⟨(encryptAndMix C h (helloKey C h spkr sidi epki shk sctr) (peerId C h spki)).2, decrypt_encrypt_mix L h _ _, ?_⟩
  unfold IHRauth
  have := decrypt_encrypt_mix L h (Paper.mix C h (encryptAndMix C h (helloKey C h spkr sidi epki shk sctr) (peerId C h spki)).2 [spki, psk]) []
  rw [show (IHI C h spkr spki psk sidi epki shk sctr).1.auth = (encryptAndMix C h (Paper.mix C h (encryptAndMix C h (helloKey C h spkr sidi epki shk sctr) (peerId C h spki)).2 [spki, psk]) []).1 from rfl, this]
  rfl

theorem RHI_RHR (L : C.Lawful) (h : HashChoice) (ck spkr spki sidi sidr epki eshk ecti sshk scti bkey nonce no : Bytes) :
    RHI C h ck epki spki eshk sshk (RHR C h ck spkr spki sidi sidr epki eshk ecti sshk scti bkey nonce no).1 =
      some (RHR C h ck spkr spki sidi sidr epki eshk ecti sshk scti bkey nonce no).2 := by
  unfold RHI
  have := decrypt_encrypt_mix L h (Paper.mix C h (respKey C h ck sidr sidi epki eshk ecti spki sshk scti)
    [biscuit C h bkey nonce spki no (respKey C h ck sidr sidi epki eshk ecti spki sshk scti) spkr sidi sidr]) []
  show (decryptAndMix C h (Paper.mix C h (respKey C h ck sidr sidi epki eshk ecti spki sshk scti)
    [biscuit C h bkey nonce spki no (respKey C h ck sidr sidi epki eshk ecti spki sshk scti) spkr sidi sidr])
    (encryptAndMix C h (Paper.mix C h (respKey C h ck sidr sidi epki eshk ecti spki sshk scti)
    [biscuit C h bkey nonce spki no (respKey C h ck sidr sidi epki eshk ecti spki sshk scti) spkr sidi sidr]) []).1).map Prod.snd = _
  rw [this]; rfl

theorem peerId_len (L : C.Lawful) (h : HashChoice) (spk : Bytes) : (peerId C h spk).length = 32 := by
  rw [peerId_eq]; exact Crypto.hash_len L _ _ _

theorem mix_len (L : C.Lawful) (h : HashChoice) (ck a : Bytes) (as : List Bytes) : (Paper.mix C h ck (a :: as)).length = 32 := by
  induction as generalizing ck a with
  | nil => show (Paper.hash C h _ _).length = 32; rw [hash_eq]; exact Crypto.hash_len L _ _ _
  | cons b as ih => exact ih _ b

theorem open_biscuit (L : C.Lawful) (h : HashChoice) {ck spkr spki sidi sidr bkey nonce no auth : Bytes}
    (hn : nonce.length = 24) (hno : no.length = 12) :
    openBiscuit C h bkey spkr { sidi := sidi, sidr := sidr, biscuitCt := biscuit C h bkey nonce spki no ck spkr sidi sidr, auth := auth } =
      some (peerId C h spki, no, ck) := by
  unfold openBiscuit biscuit
  simp only [List.take_left' hn, List.drop_left' hn, L.x_dec_enc]
  have hp := peerId_len L h spki
  congr 2
  · rw [List.append_assoc, List.take_left' hp]
  · congr 1
    · rw [List.append_assoc, List.drop_left' hp, List.take_left' hno]
    · rw [List.drop_left' (by rw [List.length_append, hp, hno])]

theorem ICR_ICI (L : C.Lawful) (h : HashChoice) (bck bct sidi sidr : Bytes) :
    let ck := (encryptAndMix C h (Paper.mix C h bck [bct]) []).2
    ICR C h bck (ICI C h ck sidi sidr bct).1 = some (ICI C h ck sidi sidr bct).2 := by
  intro ck
  unfold ICR
  have := decrypt_encrypt_mix L h (Paper.mix C h ck [sidi, sidr]) []
  show (decryptAndMix C h (Paper.mix C h ck [sidi, sidr]) (encryptAndMix C h (Paper.mix C h ck [sidi, sidr]) []).1).map Prod.snd = _
  rw [this]; rfl

/-! ### the code's states in the paper's terms -/

theorem coreAtBiscuit_paper (c : Core) (sidr sidi epki eshk ecti spkt sshk scti : Bytes) :
    coreAtBiscuit C c sidr sidi epki eshk ecti spkt sshk scti =
      { c with sidr := sidr, ck := respKey C c.hc c.ck sidr sidi epki eshk ecti spkt sshk scti } := by
  unfold coreAtBiscuit
  simp only [Core.mixKem, core_mix]
  rfl

theorem confirm_paper (c : Core) (bct sidi sidr : Bytes) :
    let ck := (encryptAndMix C c.hc (Paper.mix C c.hc c.ck [bct]) []).2
    confirm C c bct sidi sidr = ((ICI C c.hc ck sidi sidr bct).1.auth, { c with ck := (ICI C c.hc ck sidi sidr bct).2 }) := by
  intro ck
  unfold confirm
  simp only [core_mix, core_encrypt]
  rfl

theorem ack_wire (c : Core) (now : Time) (h : HashChoice) (hc : c.hc = h) :
    (ackOf C (c.enterLive C now .responder h)).encode = emptyData C (txkr C h c.ck) c.sidi := by
  subst hc
  obtain ⟨-, -, -, -, l5⟩ := enterLive_paper (C := C) c now .responder
  obtain ⟨m1, m2, m3, m4⟩ := l5 rfl
  have hn : (c.enterLive C now .responder c.hc).txnm = 0 := rfl
  unfold ackOf EmptyData.encode emptyData
  simp only [m1, m4, hn]
  rw [show toLE 8 0 = List.replicate 8 (0 : UInt8) from by decide, List.append_assoc]
  rfl

theorem paperSession_of {s : Server} {p : Nat} {q : Peer} {c : Core} {now : Time} {role : Role} {n n' : Nat} (hq : s.peers[p]? = some q)
    (hc : c.hc = q.version.hash)
    (hs : q.session = some { c.enterLive C now role q.version.hash with txnm := n, txnt := n' }) :
    PaperSession C q.version.hash s p role c.ck c.sidi c.sidr := by
  obtain ⟨l1, l2, l3, l4, l5⟩ := enterLive_paper (C := C) c now role
  rw [hc] at l1 l2 l3 l4 l5
  refine ⟨q, _, hq, hs, l3, l1, l4, l5, ?_⟩
  intro hd
  rw [osk_paper (C := C) hq hs (show Session.hc _ = _ from l2) hd]
  show Except.ok (Paper.osk C (c.enterLive C now role q.version.hash).hc (c.enterLive C now role q.version.hash).ck) = _
  rw [l1, l2]

/-- RHI in the other direction: what the paper accepts, the code accepts. -/
theorem rhi_of_paper {s : Server} {rh : Verif.RespHello} {p : Nat} {hs : IniHs} {eshk sshk ck : Bytes}
    (hl : s.lookupHandshake rh.sidi = some p) (hh : s.handshake p = some hs) (hn : hs.next = .respHello)
    (he : C.eDecaps hs.eski rh.ecti = some eshk) (hs' : C.sDecaps s.sskm rh.scti = some sshk)
    (hR : RHI C hs.core.hc hs.core.ck hs.epki s.spkm eshk sshk (ofRespHello rh) = some ck) :
    s.rhiVerify C rh = .ok (p, { hs.core with sidr := rh.sidr, ck := (ICI C hs.core.hc ck rh.sidi rh.sidr rh.biscuitCt).2 },
      { sidi := rh.sidi, sidr := rh.sidr, biscuitCt := rh.biscuitCt, auth := (ICI C hs.core.hc ck rh.sidi rh.sidr rh.biscuitCt).1.auth }) := by
  unfold rhiVerify
  simp only [hl, hh, hn, he, hs', Core.mixKem, core_mix, core_decrypt, core_encrypt, ne_eq, not_true_eq_false, if_false]
  unfold RHI at hR
  rw [Option.map_eq_some_iff] at hR
  obtain ⟨y, h1, rfl⟩ := hR
  have h2 : decryptAndMix C hs.core.hc (Paper.mix C hs.core.hc (Paper.mix C hs.core.hc (Paper.mix C hs.core.hc (Paper.mix C hs.core.hc
        (Paper.mix C hs.core.hc (Paper.mix C hs.core.hc (Paper.mix C hs.core.hc (Paper.mix C hs.core.hc (Paper.mix C hs.core.hc
          hs.core.ck [rh.sidr]) [rh.sidi]) [hs.epki]) [eshk]) [rh.ecti]) [s.spkm]) [sshk]) [rh.scti]) [rh.biscuitCt]) rh.auth = some y := h1
  rw [h2]
  rfl

end
end Paper

section
variable {C : Crypto}
open Paper

/-- **C132 (1)** An initiator that follows the paper completes a handshake with this code: its InitHello is
answered with a RespHello that passes the paper's checks, and its InitConf (with any other activity at
the responder in between) is accepted and answered with the EmptyData the paper prescribes; the
responder then holds the keys of the paper's initiator. -/
theorem paper_initiator_interoperates (L : C.Lawful) (K : C.KemTotal) {B : Server} (hreach : Reachable C B) {pb : Nat} {ea : Peer}
    (hp : B.peers[pb]? = some ea) (pairB : C.StaticPair B.sskm B.spkm) {sski : Bytes} (pairA : C.StaticPair sski ea.spkt)
    {sidi kcoins eski epki scoins shk sctr : Bytes} (hsid : sidi.length = 4) (hk : C.eKeygen kcoins = some (eski, epki))
    (he : C.sEncaps scoins B.spkm = some (shk, sctr)) {m1 : Bytes}
    (P1 : Packet C ea.version.hash B.spkm 0x81 (IHI C ea.version.hash B.spkm ea.spkt ea.psk sidi epki shk sctr).1.wire m1)
    (hun : HelloUnambiguous C B ea.version m1)
    {x2 : Bytes} (t2 : Time) {rB : HashChoice → Rnd} (hrB : ∀ h, (rB h).WF C) (h2 : Env.size (RespHello.size C) ≤ x2.length) :
    ∃ m2 B1 rh eshk sshk ck, B.handleMsg C m1 x2 t2 rB = (.ok ⟨none, some m2⟩, B1) ∧
      Packet C ea.version.hash ea.spkt 0x82 (Paper.RespHello.wire rh) m2 ∧ rh.sidi = sidi ∧
      C.eDecaps eski rh.ecti = some eshk ∧ C.sDecaps sski rh.scti = some sshk ∧
      RHI C ea.version.hash (IHI C ea.version.hash B.spkm ea.spkt ea.psk sidi epki shk sctr).2 epki ea.spkt eshk sshk rh = some ck ∧
      let y := ICI C ea.version.hash ck sidi rh.sidr rh.biscuitCt
      ∀ {B1' : Server} {m3 : Bytes} (t4 : Time) (r4 : HashChoice → Rnd) {x4 : Bytes}, StillOpen C B1 B1' pb B.biscuitCtr rh.sidr m2 →
        Packet C ea.version.hash B.spkm 0x83 y.1.wire m3 → ConfUnambiguous C B1' ea.version m3 → Env.size (RespHello.size C) ≤ x4.length →
        ∃ m4 B2, B1'.handleMsg C m3 x4 t4 r4 = (.ok ⟨some pb, some m4⟩, B2) ∧
          Packet C ea.version.hash ea.spkt 0x84 (emptyData C (txkr C ea.version.hash y.2) sidi) m4 ∧
          PaperSession C ea.version.hash B2 pb .responder y.2 sidi rh.sidr := by
  have hix := Reachable.peerIdx L hreach
  have hctr := Reachable.ctrLen L hreach
  let pih := (IHI C ea.version.hash B.spkm ea.spkt ea.psk sidi epki shk sctr).1
  let ih : Verif.InitHello := { sidi := sidi, epki := epki, sctr := sctr, pidiCt := pih.pidiC, auth := pih.auth }
  have hih : ofInitHello ih = pih := rfl
  have hwf : ih.WF C := by
    refine ⟨hsid, L.eKeygen_len _ _ _ hk, L.sEncaps_len _ _ _ _ he, ?_, ?_⟩
    · show (C.aeadEnc _ _ _ _).length = 48
      rw [L.aead_len, peerId_len L]
    · show (C.aeadEnc _ _ _ _).length = 16
      rw [L.aead_len]; rfl
  have hw : pih.wire = ih.encode := ih_wire ih
  obtain ⟨e, rfl, S1⟩ := sealed_of_packet (t := .initHello) L P1
  rw [show (IHI C ea.version.hash B.spkm ea.spkt ea.psk sidi epki shk sctr).1.wire = ih.encode from hw, InitHello.encode_length hwf] at S1
  obtain ⟨ck0, i1, i2⟩ := IHR_IHI L ea.version.hash B.spkm ea.spkt ea.psk sidi epki shk sctr
  have hpid : pidt C ea = peerId C ea.version.hash ea.spkt := by rw [peerId_eq]; rfl
  have hver := (ihr_paper (C := C) hix (ih := ih) (h := ea.version.hash) (p := pb)).mpr
    ⟨shk, _, ck0, _, ea, pairB _ _ _ he, i1, hp, hpid, i2, rfl⟩
  obtain ⟨rh, eshk, sshk, e2, hcall2, S2, hee, hse, hsr, F⟩ :=
    respond_ok (now := t2) L K hrB hix hctr S1 hwf hver hp rfl hun h2
  rw [coreAtBiscuit_paper] at F
  have hR : RHI C ea.version.hash (IHI C ea.version.hash B.spkm ea.spkt ea.psk sidi epki shk sctr).2 epki ea.spkt eshk sshk (ofRespHello rh) =
      some (encryptAndMix C ea.version.hash (Paper.mix C ea.version.hash
        (respKey C ea.version.hash (IHI C ea.version.hash B.spkm ea.spkt ea.psk sidi epki shk sctr).2 rh.sidr sidi epki eshk rh.ecti ea.spkt sshk rh.scti) [rh.biscuitCt]) []).2 := by
    have hau := F.auth
    rw [core_mix, core_encrypt] at hau
    simp only at hau
    have hsi : rh.sidi = sidi := F.sidi
    unfold RHI
    show (decryptAndMix C ea.version.hash (Paper.mix C ea.version.hash (respKey C ea.version.hash _ rh.sidr rh.sidi epki eshk rh.ecti ea.spkt sshk rh.scti) [rh.biscuitCt]) rh.auth).map Prod.snd = _
    rw [hau, hsi, ← hsr, decrypt_encrypt_mix L]
    rfl
  have P2 := packet_of_sealed S2
  rw [← rh_wire] at P2
  refine ⟨e2.encode, _, ofRespHello rh, eshk, sshk, _, hcall2, P2, F.sidi, L.eKem _ _ _ _ _ _ hk hee, pairA _ _ _ hse, hR, ?_⟩
  intro y B1' m3 t4 r4 x4 SO P3 hunc h4
  have hkey : ∀ t : Server, biscuitKeyFor C t e2.encode = t.biscuitKeys.get (biscuitKeyBit rh.biscuitCt) := by
    intro t
    unfold biscuitKeyFor
    rw [Env.view_encode S2.wf, S2.payload, RespHello.decode_encode F.wf]
  have hBi : (B.issued t2 (rB ea.version.hash)).peers[pb]? = some ea := by rw [issued_eq]; exact hp
  have hBspk : (B.issued t2 (rB ea.version.hash)).spkm = B.spkm := by rw [issued_eq]
  obtain ⟨ea1, hB1', j1, j2, j3, j4⟩ := SO.peer _ hBi
  have hix1 := Reachable.peerIdx L SO.reach
  have hpok1 := Reachable.peerOk L SO.reach
  have hkn1 := Reachable.knownIdx L SO.reach
  have hpid1 : pidt C ea1 = pidt C ea := by unfold pidt; rw [j1, j2]
  obtain ⟨o, ho, hpos⟩ : ∃ o : Int32, ConstantTime.compare B.biscuitCtr ea1.biscuitUsed = some o ∧ o > 0 := by
    refine ⟨1, ?_, by decide⟩
    rw [(ConstantTime.compare_is_integer_comparison _ _).1 (hctr.trans (hpok1 pb ea1 hB1').used.symm)]
    rw [if_neg (by omega), if_neg (by omega)]
  have hicr := icr_ok L (B' := B1') (ea' := ea1) (pb := pb) F hctr rfl rfl
    (SO.spkm.trans hBspk) (by simpa only [hkey] using SO.biscuitKey) ((hix1 _ pb).mpr ⟨ea1, hB1', hpid1⟩) hB1' j2 ho hpos
  simp only [confirm_paper] at hicr
  have hsi : rh.sidi = sidi := F.sidi
  rw [hsi, ← hsr] at hicr
  have hicwf : (Verif.InitConf.mk sidi rh.sidr rh.biscuitCt y.1.auth).WF := by
    refine ⟨hsid, F.wf.1, F.wf.2.2.2.2.2, ?_⟩
    show (C.aeadEnc _ _ _ _).length = 16
    rw [L.aead_len]; rfl
  obtain ⟨e3, rfl, S3⟩ := sealed_of_packet (t := .initConf) L P3
  have hw3 : y.1.wire = (Verif.InitConf.mk sidi rh.sidr rh.biscuitCt y.1.auth).encode :=
    ic_wire (Verif.InitConf.mk sidi rh.sidr rh.biscuitCt y.1.auth)
  rw [hw3, InitConf.encode_length hicwf] at S3
  rw [← j2] at hicr hunc
  rw [← j2, ← hBspk, ← SO.spkm] at S3
  have hfree : B1'.index (.sid rh.sidr) = none ∨ B1'.index (.sid rh.sidr) = some pb := SO.sid
  have hsizes : Env.size EmptyData.size ≤ Env.size (RespHello.size C) := by
    simp only [Env.size, RespHello.size, EmptyData.size, biscuitCtLen]; omega
  rw [j2] at hicr
  obtain ⟨kn, e4, B2, hcall4, S4, hB2, -⟩ :=
    confirm_ok (now := t4) (r := r4) (c := { sidi := sidi, sidr := rh.sidr, ck := y.2, hc := ea.version.hash }) (ic := Verif.InitConf.mk sidi rh.sidr rh.biscuitCt y.1.auth)
      L hix1 hpok1 hkn1 S3 hicwf (by rw [j2]; exact hicr) hB1' hfree hunc h4 (by omega)
  refine ⟨e4.encode, B2, hcall4, ?_, ?_⟩
  · have P4 := packet_of_sealed S4
    rw [j2, j1, ack_wire _ _ _ rfl] at P4
    exact P4
  · have := paperSession_of (C := C) (c := { sidi := sidi, sidr := rh.sidr, ck := y.2, hc := ea.version.hash }) (n' := 0) hB2 (by rw [j2]) rfl
    rw [show Peer.version { ea1 with biscuitUsed := B.biscuitCtr, session := _, handshake := none, known := some kn } = ea1.version from rfl, j2] at this
    exact this

/-- **C132 (2)** A responder that follows the paper completes a handshake with this code: the InitHello
passes the paper's checks, any RespHello that the paper allows the responder to send (with any other
activity at the initiator in between) is accepted and answered with an InitConf from which the
responder recovers its biscuit and the initiator's chaining key, and the paper's EmptyData ends the
handshake. -/
theorem paper_responder_interoperates (L : C.Lawful) (K : C.KemTotal) {A : Server} {pa : Nat} {eb : Peer}
    (hp : A.peers[pa]? = some eb) (pairA : C.StaticPair A.sskm A.spkm) {sskr : Bytes} (pairB : C.StaticPair sskr eb.spkt)
    {rA : Rnd} (hrA : rA.WF C) (hsidA : A.index (.sid rA.sid) = none) (hnewA : (A.handshake pa).map (·.core.sidi) ≠ some rA.sid)
    (t1 : Time) {x1 : Bytes} (h1 : Env.size (InitHello.size C) ≤ x1.length) :
    ∃ m1 A1 ih shk ck0 ck, A.initiate C pa t1 rA x1 = (.ok m1, A1) ∧
      Packet C eb.version.hash eb.spkt 0x81 (Paper.InitHello.wire ih) m1 ∧ ih.sidi = rA.sid ∧ C.sDecaps sskr ih.sctr = some shk ∧
      IHRid C eb.version.hash eb.spkt shk ih = some (peerId C eb.version.hash A.spkm, ck0) ∧
      IHRauth C eb.version.hash A.spkm eb.psk ck0 ih = some ck ∧
      ∀ {sidr ecoins eshk ecti scoins sshk scti bkey nonce no : Bytes}, sidr.length = 4 → nonce.length = 24 → no.length = 12 →
        C.eEncaps ecoins ih.epki = some (eshk, ecti) → C.sEncaps scoins A.spkm = some (sshk, scti) →
        let y := RHR C eb.version.hash ck eb.spkt A.spkm rA.sid sidr ih.epki eshk ecti sshk scti bkey nonce no
        ∀ {A1' : Server} {m2 : Bytes} (t3 : Time) (r3 : HashChoice → Rnd) {x3 : Bytes}, StillPending A1 A1' pa rA.sid →
          Packet C eb.version.hash A.spkm 0x82 y.1.wire m2 → Env.size (RespHello.size C) ≤ x3.length →
          ∃ m3 A2 ic bck ck', A1'.handleMsg C m2 x3 t3 r3 = (.ok ⟨some pa, some m3⟩, A2) ∧
            Packet C eb.version.hash eb.spkt 0x83 (Paper.InitConf.wire ic) m3 ∧ ic.sidi = rA.sid ∧ ic.sidr = sidr ∧
            openBiscuit C eb.version.hash bkey eb.spkt ic = some (peerId C eb.version.hash A.spkm, no, bck) ∧
            ICR C eb.version.hash bck ic = some ck' ∧ PaperSession C eb.version.hash A2 pa .initiator ck' rA.sid sidr ∧
            ∀ {A2' : Server} {m4 : Bytes} (t5 : Time) (r5 : HashChoice → Rnd) {x5 : Bytes}, StillUnconfirmed A2 A2' pa rA.sid →
              Packet C eb.version.hash A.spkm 0x84 (emptyData C (txkr C eb.version.hash ck') rA.sid) m4 → Env.size (RespHello.size C) ≤ x5.length →
              ∃ A3, A2'.handleMsg C m4 x5 t5 r5 = (.ok ⟨none, none⟩, A3) ∧ A3.handshake pa = none ∧
                PaperSession C eb.version.hash A3 pa .initiator ck' rA.sid sidr := by
  obtain ⟨ih, hs0, hs, e1, A1, hini, hcall, hS1, hA1, hcore, hnext, heski, hepki, hidx1, -, hg1⟩ :=
    initiate_ok (now := t1) L K hrA hp hsidA hnewA h1
  obtain ⟨eski, epki, shk, sctr, g1, g2, g3, g4, g5, g6, g7, g8⟩ := initiation_paper hini
  obtain ⟨ck0, i1, i2⟩ := IHR_IHI L eb.version.hash eb.spkt A.spkm eb.psk rA.sid epki shk sctr
  have P1 := packet_of_sealed hS1
  rw [← ih_wire, g3] at P1
  refine ⟨e1.encode, A1, _, shk, ck0, _, hcall, P1, rfl, pairB _ _ _ g2, i1, i2, ?_⟩
  intro sidr ecoins eshk ecti scoins sshk scti bkey nonce no hsr hnonce hno hee hse y A1' m2 t3 r3 x3 SP P2 h3
  obtain ⟨eb1, hA1', k1, k2, k3, k4⟩ := SP.peer _ hA1
  simp only [Option.map_some] at k1 k2 k3 k4
  obtain ⟨hs1, hhs1, hx⟩ := Option.map_eq_some_iff.mp k4
  simp only [Prod.mk.injEq] at hx
  obtain ⟨n1, n2, n3, n4⟩ := hx
  have hidx1' : A1'.index (.sid rA.sid) = some pa := SP.sid.trans hidx1
  have hcsid : hs1.core.sidi = rA.sid := by rw [n2, hcore]; exact g5
  have hlook1' := lookupHandshake_of hA1' hhs1 hcsid hidx1'
  have hhc : hs1.core.hc = eb.version.hash := by rw [n2, hcore]; exact g6
  have hck : hs1.core.ck = (IHI C eb.version.hash eb.spkt A.spkm eb.psk rA.sid epki shk sctr).2 := by rw [n2, hcore]; exact g4
  let rh : Verif.RespHello := { sidr := y.1.sidr, sidi := y.1.sidi, ecti := y.1.ecti, scti := y.1.scti, auth := y.1.auth, biscuitCt := y.1.biscuitCt }
  have hrh : ofRespHello rh = y.1 := rfl
  have hbk : (biscuit C eb.version.hash bkey nonce A.spkm no (respKey C eb.version.hash (IHI C eb.version.hash eb.spkt A.spkm eb.psk rA.sid epki shk sctr).2 sidr rA.sid epki eshk ecti A.spkm sshk scti) eb.spkt rA.sid sidr).length = 116 := by
    unfold biscuit
    rw [List.length_append, L.x_len, List.length_append, List.length_append, peerId_len L, hnonce, hno,
      show respKey C eb.version.hash _ sidr rA.sid epki eshk ecti A.spkm sshk scti = Paper.mix C eb.version.hash _ [A.spkm, sshk, scti] from rfl, mix_len L]
  have hwf : rh.WF C := by
    refine ⟨hsr, hrA.sid, L.eEncaps_len _ _ _ _ hee, L.sEncaps_len _ _ _ _ hse, ?_, hbk⟩
    show (C.aeadEnc _ _ _ _).length = 16
    rw [L.aead_len]; rfl
  have hspk : A1'.spkm = A.spkm := by rw [SP.spkm, hg1.spkm]
  have hrhi := rhi_of_paper (C := C) (s := A1') (rh := rh) (p := pa) (hs := hs1) (eshk := eshk) (sshk := sshk) (ck := y.2) hlook1'
    (by simp [Server.handshake, hA1', hhs1]) (n1.trans hnext)
    (by rw [n3, heski, g7]; exact L.eKem _ _ _ _ _ _ g1 hee) (by rw [SP.sskm, hg1.sskm]; exact pairA _ _ _ hse)
    (by rw [hrh, hhc, hck, n4, hepki, g8, hspk]; exact RHI_RHR L _ _ _ _ _ _ _ _ _ _ _ _ _ _)
  obtain ⟨e2, rfl, S2⟩ := sealed_of_packet (t := .respHello) L P2
  rw [← hrh, rh_wire, RespHello.encode_length hwf, ← hspk, ← k2] at S2
  have hsizes : Env.size InitConf.size ≤ Env.size (RespHello.size C) ∧ Env.size EmptyData.size ≤ Env.size (RespHello.size C) := by
    simp only [Env.size, InitConf.size, RespHello.size, EmptyData.size, biscuitCtLen]; omega
  obtain ⟨hs2, e3, A2, hcall3, hS3, hA2, hnext2, hsid2, hidx2, -, hg2⟩ :=
    accept_ok (now := t3) (r := r3) L S2 hwf hrhi hA1' hhs1 hidx1' hcsid h3 (by omega)
  have P3 := packet_of_sealed hS3
  rw [← ic_wire, hhc, k1, k2] at P3
  have hob := open_biscuit (C := C) L eb.version.hash (spkr := eb.spkt) (spki := A.spkm) (sidi := rA.sid) (sidr := sidr) (bkey := bkey)
    (ck := respKey C eb.version.hash (IHI C eb.version.hash eb.spkt A.spkm eb.psk rA.sid epki shk sctr).2 sidr rA.sid epki eshk ecti A.spkm sshk scti)
    (auth := (ICI C eb.version.hash y.2 rA.sid sidr y.1.biscuitCt).1.auth) hnonce hno
  have hicr := ICR_ICI (C := C) L eb.version.hash
    (respKey C eb.version.hash (IHI C eb.version.hash eb.spkt A.spkm eb.psk rA.sid epki shk sctr).2 sidr rA.sid epki eshk ecti A.spkm sshk scti) y.1.biscuitCt rA.sid sidr
  refine ⟨e3.encode, A2, _, _, (ICI C eb.version.hash y.2 rA.sid sidr y.1.biscuitCt).2, hcall3, P3, rfl, rfl, hob, hicr, ?_, ?_⟩
  · have := paperSession_of (C := C) (c := { hs1.core with sidr := rh.sidr, ck := (ICI C hs1.core.hc y.2 rh.sidi rh.sidr rh.biscuitCt).2 }) (now := t3) (role := .initiator) (n := 0) (n' := 0) hA2 (hhc.trans (congrArg Version.hash k2.symm)) rfl
    rw [show Peer.version { eb1 with session := _, handshake := some hs2 } = eb1.version from rfl, k2] at this
    simp only [hhc, hcsid] at this
    exact this
  · intro A2' m4 t5 r5 x5 SU P4 h5
    obtain ⟨eb2, hA2', l1, l2, l3, l4⟩ := SU.peer _ hA2
    simp only [Option.map_some] at l1 l2 l3 l4
    obtain ⟨hs3, hhs3, hx⟩ := Option.map_eq_some_iff.mp l4
    simp only [Prod.mk.injEq] at hx
    have hs3sid : hs3.core.sidi = rA.sid := by rw [hx.2, hsid2, hcsid]
    have hlook := lookupHandshake_of hA2' hhs3 hs3sid (by rw [SU.sid]; exact hidx2)
    obtain ⟨e4, rfl, S4⟩ := sealed_of_packet (t := .emptyData) L P4
    have hspk2 : A2'.spkm = A.spkm := by rw [SU.spkm, hg2.spkm, hspk]
    let c : Core := { sidi := rA.sid, sidr := sidr, ck := (ICI C eb.version.hash y.2 rA.sid sidr y.1.biscuitCt).2, hc := eb.version.hash }
    have hw4 := ack_wire (C := C) c 0 eb.version.hash rfl
    have hl4 : (emptyData C (txkr C eb.version.hash c.ck) c.sidi).length = EmptyData.size := by
      unfold emptyData
      simp only [List.length_append, List.length_replicate, L.aead_len, List.length_nil]
      show rA.sid.length + 8 + (0 + 16) = _
      rw [hrA.sid]; rfl
    rw [show emptyData C (txkr C eb.version.hash (ICI C eb.version.hash y.2 rA.sid sidr y.1.biscuitCt).2) rA.sid =
      emptyData C (txkr C eb.version.hash c.ck) c.sidi from rfl, hl4, ← hw4, ← hspk2, ← k2, ← l1] at S4
    have hver : eb2.version = eb.version := l1.trans k2
    obtain ⟨A3, hcall5, hA3⟩ := ack_ok (now := t5) (r := r5) (ack := c.enterLive C 0 .responder eb2.version.hash) L S4 hlook hA2' hhs3 (hx.1.trans hnext2) l3
      (by rw [k2, hhc, hver]; rfl) (Nat.le_refl _) (by show 0 < 256 ^ 8; decide) hrA.sid h5
    refine ⟨A3, hcall5, by simp [Server.handshake, hA3], ?_⟩
    have := paperSession_of (C := C) (c := { hs1.core with sidr := rh.sidr, ck := (ICI C hs1.core.hc y.2 rh.sidi rh.sidr rh.biscuitCt).2 }) (now := t3) (role := .initiator) (n := 0) (n' := 0) hA3
      (hhc.trans (congrArg Version.hash hver.symm)) (by rw [show Peer.version { eb2 with session := _, handshake := none } = eb2.version from rfl, l1]; rfl)
    rw [show Peer.version { eb2 with session := _, handshake := none } = eb2.version from rfl, hver] at this
    simp only [hhc, hcsid] at this
    exact this

end
/-! ### the hypotheses are met -/

/-- a paper initiator's InitHello for the toy responder -/
def Ex.paperHello : Paper.InitHello :=
  (Paper.IHI Toy.crypto .shake (Ex.B0 .v03).spkm Ex.skA (toLE 32 77) [1, 2, 3, 4] (toLE 4 (Toy.mix [9]))
    (Toy.H ((Ex.B0 .v03).spkm ++ toLE 112 (Toy.mix [5]))) (toLE 112 (Toy.mix [5]))).1

/-- Such a packet exists, and is answered. -/
example : (∃ m1, Paper.Packet Toy.crypto .shake (Ex.B0 .v03).spkm 0x81 Ex.paperHello.wire m1) ∧
    ∀ m1, Paper.Packet Toy.crypto .shake (Ex.B0 .v03).spkm 0x81 Ex.paperHello.wire m1 →
      ∃ m2 B1, (Ex.B0 .v03).handleMsg Toy.crypto m1 Ex.buf 1 (fun _ => Ex.rnd 20) = (.ok ⟨none, some m2⟩, B1) := by
  refine ⟨⟨_, [0, 0, 0], List.replicate 16 7, rfl, rfl, rfl⟩, fun m1 P => ?_⟩
  have M := Ex.registered .v03
  obtain ⟨m2, B1, -, -, -, -, h, -⟩ := paper_initiator_interoperates Toy.lawful Toy.kemTotal (Ex.B0_reach .v03) M.atB M.pairB (sski := Ex.skA) (Toy.staticPair _)
    (sidi := [1, 2, 3, 4]) (kcoins := [9]) (scoins := [5]) rfl rfl rfl P (fun h => nomatch h) (x2 := Ex.buf) 1 (rB := fun _ => Ex.rnd 20) (fun _ => Ex.rnd_WF 20) (by decide +kernel)
  exact ⟨m2, B1, h⟩

/-- The responder is still able to take the InitConf of the toy run, and the initiator the RespHello
and the EmptyData. -/
example : StillOpen Toy.crypto (Ex.B1 .v03) (Ex.B1 .v03) 0 (Ex.B0 .v03).biscuitCtr (Ex.rnd 20).sid (Ex.m2 .v03) ∧
    ConfUnambiguous Toy.crypto (Ex.B1 .v03) .v03 (Ex.m3 .v03) ∧
    (∀ v, (Ex.A0 v).index (.sid (Ex.rnd 9).sid) = none ∧ (Ex.A0 v).handshake 0 = none) ∧
    StillPending (Ex.A1 .v03) (Ex.A1 .v03) 0 (Ex.rnd 9).sid ∧ StillUnconfirmed (Ex.A2 .v03) (Ex.A2 .v03) 0 (Ex.rnd 9).sid := by
  refine ⟨⟨Ex.B1_reach _, rfl, rfl, fun q hq => ⟨q, hq, rfl, rfl, rfl, ?_⟩, .inl (by decide +kernel)⟩, ?_, fun v => ⟨by cases v <;> decide +kernel, by cases v <;> decide +kernel⟩,
    ⟨rfl, rfl, fun q hq => ⟨q, hq, rfl, rfl, rfl, rfl⟩, rfl⟩, ⟨rfl, fun q hq => ⟨q, hq, rfl, rfl, rfl, rfl⟩, rfl⟩⟩
  · have h : (match (Ex.B1 .v03).peers[0]? with | some q => decide (leNat q.biscuitUsed < leNat (Ex.B0 .v03).biscuitCtr) | none => true) = true := by decide +kernel
    rw [hq] at h
    exact of_decide_eq_true h
  · intro e he
    have h : (match Env.decode InitConf.size (Ex.m3 .v03) with | some e => decide ((Ex.B1 .v03).index (.known ((Ex.B1 .v03).knownHash Toy.crypto e)) = none) | none => true) = true := by decide +kernel
    rw [he] at h
    exact ⟨of_decide_eq_true h, fun h => nomatch h⟩

end Verif
