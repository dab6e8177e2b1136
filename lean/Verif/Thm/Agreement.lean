import Verif.Thm.Msgs
import Verif.Thm.ConstantTime
import Verif.Thm.Lemmas
/-
C01: key agreement, by symbolic execution of both roles against each other.
-/
namespace Verif
open HashDomain Server

section
variable {C : Crypto}

theorem decrypt_encrypt (L : C.Lawful) (c : Core) (pt : Bytes) :
    c.decryptAndMix C (c.encryptAndMix C pt).1 = some (pt, (c.encryptAndMix C pt).2) := by
  simp [Core.decryptAndMix, Core.encryptAndMix, L.aead_dec_enc]

/-- IHI against IHR: the responder reaches the initiator's handshake state. -/
theorem ihr_of_initiation (L : C.Lawful) {A B : Server} {eb ea : Peer} {now : Time} {r : Rnd}
    {ih : InitHello} {hs : IniHs} {pb : Nat}
    (hi : A.initiation C eb now r = some (ih, hs))
    (hpk : eb.spkt = B.spkm) (hsp : C.StaticPair B.sskm B.spkm)
    (hfind : B.findPeer (A.pidm C eb.version.hash) = some pb)
    (hpeer : B.peers[pb]? = some ea) (hspk : ea.spkt = A.spkm) (hpsk : ea.psk = eb.psk) :
    B.ihrVerify C ih eb.version.hash = .ok (pb, hs.core) := by
  unfold initiation at hi
  simp only at hi
  split at hi
  · cases hi
  · rename_i eski epki hk
    split at hi
    · cases hi
    · rename_i shk sctr he
      simp only [Option.some.injEq, Prod.mk.injEq] at hi
      obtain ⟨rfl, rfl⟩ := hi
      rw [hpk] at he
      have hd := hsp _ _ _ he
      simp only [ihrVerify, hd, hpk]
      rw [decrypt_encrypt L]
      simp only [hfind, hpeer, hspk, hpsk]
      rw [decrypt_encrypt L]

theorem biscuitKeyBit_nonce (n rest : Bytes) (hn : n.length = 24) (k : Bool) :
    biscuitKeyBit (biscuitNonce n k ++ rest) = k := by
  cases n with
  | nil => simp at hn
  | cons b bs =>
    have h1 : ((b &&& 0x7F) ||| (if k then (0x80 : UInt8) else 0)) &&& 0x80 =
        (if k then (0x80 : UInt8) else 0) := by
      have h0 : (b &&& 0x7F) &&& 0x80 = (0 : UInt8) := by
        rw [UInt8.and_assoc, show ((0x7F : UInt8) &&& 0x80) = 0 from rfl]; exact UInt8.and_zero
      apply UInt8.toBitVec_inj.mp
      have h0' := congrArg UInt8.toBitVec h0
      simp only [UInt8.toBitVec_and, UInt8.toBitVec_or] at h0' ⊢
      rw [BitVec.and_comm, BitVec.and_or_distrib_left, BitVec.and_comm, h0']
      cases k <;> rfl
    simp only [biscuitKeyBit, biscuitNonce, List.cons_append, List.headD_cons, h1]
    cases k <;> simp

theorem biscuitNonce_length (n : Bytes) (k : Bool) : (biscuitNonce n k).length = n.length := by
  cases n <;> simp [biscuitNonce]

theorem core_mix_ck_len (L : C.Lawful) (c : Core) (a : Bytes) : (c.mix C a).ck.length = 32 :=
  Crypto.hash_len L _ _ _

theorem pidt_len (L : C.Lawful) (p : Peer) : (pidt C p).length = 32 := Crypto.hash_len L _ _ _

/-- The state in which the responder's biscuit is encrypted (counter bumped, key chosen). -/
def afterIssue (B : Server) (now : Time) (r : Rnd) : Server :=
  (({ B with biscuitCtr := ConstantTime.increment B.biscuitCtr } : Server).activeBiscuitKey now r.bkey).2

theorem afterIssue_eq (B : Server) (now : Time) (r : Rnd) :
    afterIssue B now r = { B with biscuitCtr := ConstantTime.increment B.biscuitCtr, biscuitKeys := (afterIssue B now r).biscuitKeys } := by
  unfold afterIssue
  exact activeBiscuitKey_eq _ _ _

/-- What the responder's answer fixes for the rest of the run. -/
structure RhrFacts (C : Crypto) (B B1 : Server) (ih : InitHello) (ea : Peer) (core c : Core)
    (rh : RespHello) : Prop where
  sidi : rh.sidi = ih.sidi
  open_ : C.xOpen (B1.biscuitKeys.get (biscuitKeyBit rh.biscuitCt)).value
      (biscuitAd C ea.version.hash B.spkm ih.sidi rh.sidr) rh.biscuitCt =
      some (Biscuit.encode ⟨pidt C ea, B.biscuitCtr, c.ck⟩)
  ckLen : c.ck.length = 32
  csidi : c.sidi = core.sidi
  csidr : c.sidr = rh.sidr
  chc : c.hc = core.hc
  auth : rh.auth = ((c.mix C rh.biscuitCt).encryptAndMix C []).1
  wf : RespHello.WF C rh

/-- Handshake state of the responder when it issues the biscuit. -/
def coreAtBiscuit (C : Crypto) (core : Core) (sidr sidi epki eshk ecti spkt sshk scti : Bytes) : Core :=
  ((((({ core with sidr := sidr } : Core).mix C sidr).mix C sidi).mixKem C epki eshk ecti).mixKem C spkt sshk scti)

/-- What RHR answers when both encapsulations succeed. -/
theorem rhr_run (L : C.Lawful) (B : Server) (ih : InitHello) (pb : Nat) (ea : Peer)
    (core : Core) (now : Time) (r : Rnd) (hr : r.WF C) (hsid : core.sidi = ih.sidi)
    (hwf : ih.WF C) (hctr : B.biscuitCtr.length = 12) {eshk ecti sshk scti : Bytes}
    (he : C.eEncaps r.ecoins ih.epki = some (eshk, ecti)) (hs : C.sEncaps r.scoins ea.spkt = some (sshk, scti)) :
    ∃ rh, B.rhr C ih pb ea core now r = (.ok (pb, rh), afterIssue B now r) ∧
      rh.ecti = ecti ∧ rh.scti = scti ∧ rh.sidr = r.sid ∧
      RhrFacts C B (afterIssue B now r) ih ea core
        (coreAtBiscuit C core r.sid ih.sidi ih.epki eshk ecti ea.spkt sshk scti) rh := by
  have hlen : (coreAtBiscuit C core r.sid ih.sidi ih.epki eshk ecti ea.spkt sshk scti).ck.length = 32 :=
    core_mix_ck_len L _ _
  refine ⟨_, by simp only [rhr, he, hs, storeBiscuit, afterIssue]; rfl, rfl, rfl, rfl, ?_⟩
  constructor
  · rfl
  · simp only [Crypto.xSeal, biscuitKeyBit_nonce _ _ hr.nonce, hsid]
    exact Crypto.xOpen_xSeal L _ _ _ _ (by rw [biscuitNonce_length]; exact hr.nonce)
  · exact hlen
  · rfl
  · rfl
  · rfl
  · simp only [hsid]; rfl
  · refine ⟨hr.sid, hwf.1, L.eEncaps_len _ _ _ _ he, L.sEncaps_len _ _ _ _ hs, ?_, ?_⟩
    · simp [Core.encryptAndMix, L.aead_len]
    · simp only [Crypto.xSeal_len L, biscuitNonce_length, hr.nonce]
      have hb : Biscuit.WF ⟨pidt C ea, B.biscuitCtr,
          (coreAtBiscuit C core r.sid ih.sidi ih.epki eshk ecti ea.spkt sshk scti).ck⟩ :=
        ⟨pidt_len L _, hctr, hlen⟩
      have h2 := Biscuit.encode_length hb
      simp only [Biscuit.size] at h2
      simp only [hsid, biscuitCtLen]
      show 24 + (Biscuit.encode ⟨pidt C ea, B.biscuitCtr, (coreAtBiscuit C core r.sid ih.sidi ih.epki eshk ecti ea.spkt sshk scti).ck⟩).length + 16 = 116
      rw [h2]

theorem rhr_ok (L : C.Lawful) (K : C.KemTotal) (B : Server) (ih : InitHello) (pb : Nat) (ea : Peer)
    (core : Core) (now : Time) (r : Rnd) (hr : r.WF C) (hsid : core.sidi = ih.sidi)
    (hwf : ih.WF C) (hctr : B.biscuitCtr.length = 12) :
    ∃ rh eshk sshk, B.rhr C ih pb ea core now r = (.ok (pb, rh), afterIssue B now r) ∧
      C.eEncaps r.ecoins ih.epki = some (eshk, rh.ecti) ∧
      C.sEncaps r.scoins ea.spkt = some (sshk, rh.scti) ∧
      rh.sidr = r.sid ∧
      RhrFacts C B (afterIssue B now r) ih ea core
        (coreAtBiscuit C core r.sid ih.sidi ih.epki eshk rh.ecti ea.spkt sshk rh.scti) rh := by
  obtain ⟨⟨eshk, ecti⟩, he⟩ := Option.isSome_iff_exists.mp (K.eEnc r.ecoins ih.epki)
  obtain ⟨⟨sshk, scti⟩, hs⟩ := Option.isSome_iff_exists.mp (K.sEnc r.scoins ea.spkt)
  obtain ⟨rh, h1, rfl, rfl, h4, F⟩ := rhr_run L B ih pb ea core now r hr hsid hwf hctr he hs
  exact ⟨rh, eshk, sshk, h1, he, hs, h4, F⟩

/-- Whenever RHR answers, the biscuit in the answer opens, and carries the counter's old value. -/
theorem rhr_facts (L : C.Lawful) {B s' : Server} {ih : InitHello} {pb q : Nat} {ea : Peer}
    {core : Core} {now : Time} {r : Rnd} {rh : RespHello} (hr : r.WF C) (hsid : core.sidi = ih.sidi)
    (hwf : ih.WF C) (hctr : B.biscuitCtr.length = 12)
    (h : B.rhr C ih pb ea core now r = (.ok (q, rh), s')) :
    s' = afterIssue B now r ∧ ∃ c, RhrFacts C B (afterIssue B now r) ih ea core c rh := by
  cases he : C.eEncaps r.ecoins ih.epki with
  | none => simp [rhr, he] at h
  | some x =>
    cases hs : C.sEncaps r.scoins ea.spkt with
    | none => simp [rhr, he, hs] at h
    | some y =>
      obtain ⟨rh', h1, -, -, -, F⟩ := rhr_run L B ih pb ea core now r hr hsid hwf hctr he hs
      rw [h1] at h
      cases h
      exact ⟨rfl, _, F⟩

/-- Both parties' computation after the biscuit: auth tag of the InitConf and final state. -/
def confirm (C : Crypto) (c : Core) (bct sidi sidr : Bytes) : Bytes × Core :=
  (((((c.mix C bct).encryptAndMix C []).2.mix C sidi).mix C sidr).encryptAndMix C [])

theorem rhi_ok (L : C.Lawful) {A B B1 : Server} {ih : InitHello} {rh : RespHello} {ea : Peer}
    {core : Core} {hs : IniHs} {pa : Nat} {eshk sshk : Bytes}
    (F : RhrFacts C B B1 ih ea core (coreAtBiscuit C core rh.sidr ih.sidi ih.epki eshk rh.ecti ea.spkt sshk rh.scti) rh)
    (hlook : A.lookupHandshake ih.sidi = some pa) (hhs : A.handshake pa = some hs)
    (hnext : hs.next = .respHello) (hcore : hs.core = core) (hepk : hs.epki = ih.epki)
    (heK : C.eDecaps hs.eski rh.ecti = some eshk) (hsK : C.sDecaps A.sskm rh.scti = some sshk)
    (hspk : ea.spkt = A.spkm) :
    A.rhiVerify C rh =
      let c := coreAtBiscuit C core rh.sidr ih.sidi ih.epki eshk rh.ecti ea.spkt sshk rh.scti
      let x := confirm C c rh.biscuitCt rh.sidi rh.sidr
      .ok (pa, x.2, ⟨rh.sidi, rh.sidr, rh.biscuitCt, x.1⟩) := by
  have hauth := F.auth
  unfold rhiVerify
  simp only [F.sidi, hlook, hhs, hnext, ne_eq, not_true_eq_false, if_false, heK, hsK, hcore, hepk]
  rw [← hspk]
  have hd : (((((({ core with sidr := rh.sidr } : Core).mix C rh.sidr).mix C ih.sidi).mixKem C ih.epki eshk rh.ecti).mixKem C
      ea.spkt sshk rh.scti).mix C rh.biscuitCt).decryptAndMix C rh.auth =
      some ([], (((coreAtBiscuit C core rh.sidr ih.sidi ih.epki eshk rh.ecti ea.spkt sshk rh.scti).mix C
        rh.biscuitCt).encryptAndMix C []).2) := by
    rw [hauth]; exact decrypt_encrypt L _ _
  rw [hd]
  rfl

theorem icr_ok (L : C.Lawful) {B B1 B' : Server} {ih : InitHello} {rh : RespHello} {ea ea' : Peer}
    {core c : Core} {pb : Nat} {o : Int32}
    (F : RhrFacts C B B1 ih ea core c rh)
    (hctr : B.biscuitCtr.length = 12)
    (hsid : core.sidi = ih.sidi) (hhc : core.hc = ea.version.hash)
    (hspkm : B'.spkm = B.spkm)
    (hkey : (B'.biscuitKeys.get (biscuitKeyBit rh.biscuitCt)).value =
            (B1.biscuitKeys.get (biscuitKeyBit rh.biscuitCt)).value)
    (hfind : B'.findPeer (pidt C ea) = some pb) (hpeer : B'.peers[pb]? = some ea')
    (hver : ea'.version = ea.version)
    (hcmp : ConstantTime.compare B.biscuitCtr ea'.biscuitUsed = some o) (ho : o > 0) :
    let x := confirm C c rh.biscuitCt rh.sidi rh.sidr
    B'.icrVerify C ⟨rh.sidi, rh.sidr, rh.biscuitCt, x.1⟩ ea.version.hash =
      .ok (pb, B.biscuitCtr, x.2) := by
  have hb : Biscuit.WF ⟨pidt C ea, B.biscuitCtr, c.ck⟩ := ⟨pidt_len L _, hctr, F.ckLen⟩
  have hload : B'.loadBiscuit C rh.biscuitCt rh.sidi rh.sidr ea.version.hash =
      .ok (pb, B.biscuitCtr, c.mix C rh.biscuitCt) := by
    unfold loadBiscuit
    simp only [hkey, hspkm, F.sidi, F.open_, Biscuit.decode_encode hb, hfind, hpeer]
    congr 4
    rw [hver, ← hhc, ← F.chc, ← F.csidr, ← hsid, ← F.csidi]
  simp only [icrVerify, hload]
  have hd := decrypt_encrypt L ((((c.mix C rh.biscuitCt).encryptAndMix C []).2.mix C rh.sidi).mix C rh.sidr) []
  rw [show (confirm C c rh.biscuitCt rh.sidi rh.sidr).1 =
    (((((c.mix C rh.biscuitCt).encryptAndMix C []).2.mix C rh.sidi).mix C rh.sidr).encryptAndMix C []).1 from rfl, hd]
  simp only [hpeer, hcmp, ho, if_true]
  rfl

end
end Verif
