import Verif.Thm.Agreement
import Verif.Thm.Index
/-
C01: the four messages end to end.
-/
namespace Verif
open HashDomain Server

section
variable {C : Crypto}

/-- A correctly sealed envelope of type `t` with payload `pl` for the holder of `spk`. -/
structure Sealed (C : Crypto) (n : Nat) (h : HashChoice) (spk : Bytes) (t : MsgType) (pl : Bytes)
    (e : Env) : Prop where
  wf : e.WF n
  type : e.msgType = t.toU8
  payload : e.payload = pl
  mac : e.mac = macOf C h spk e

theorem sealMsg_sealed (L : C.Lawful) {n : Nat} (peer : Peer) (t : MsgType) (e : Env) (hwf : e.WF n) :
    Sealed C n peer.version.hash peer.spkt t e.payload (sealMsg C peer t e) := by
  refine ⟨sealMsg_WF L hwf, ?_, ?_, ?_⟩
  · unfold sealMsg sealCookie
    split <;> rfl
  · unfold sealMsg sealCookie
    split <;> rfl
  · unfold sealMsg sealCookie
    split <;> rfl

theorem Sealed.check {n h t pl e} {s : Server} (S : Sealed C n h s.spkm t pl e) : s.checkSeal C h e = true := by
  unfold checkSeal
  rw [ConstantTime.memcmp_iff_eq]
  exact S.mac

theorem Sealed.decode {n h spk t pl e} (S : Sealed C n h spk t pl e) : Env.decode n e.encode = some e := by
  unfold Env.decode
  rw [if_pos (Env.encode_length S.wf), Env.view_encode S.wf]

theorem Sealed.cons {n h spk t pl e} (S : Sealed C n h spk t pl e) : ∃ bs, e.encode = t.toU8 :: bs := by
  refine ⟨e.encode.tail, ?_⟩
  rw [← S.type]
  rfl

theorem castTx_some {n : Nat} {tx : Bytes} (h : Env.size n ≤ tx.length) : ∃ e, castTx n tx = some e ∧ e.WF n := by
  refine ⟨Env.view n (tx.take (Env.size n)), ?_, ?_⟩
  · unfold castTx; rw [if_neg (by omega)]
  · apply Env.view_WF; simp; omega

theorem storeMsg_ok {s : Server} {p : Nat} {hs : IniHs} (h : s.handshake p = some hs) (now : Time) (jit : Nat)
    (msg : Bytes) : s.storeMsg p now jit msg = (.ok (), s.modHs p (fun hs =>
      regRetransmit now jit { hs with txBuf := cpyMin msg hs.txBuf, txCount := 0, txLen := msg.length })) := by
  unfold storeMsg; rw [h]

/-- Message 1: starting a handshake under an unused session id. -/
theorem initiate_ok (L : C.Lawful) (K : C.KemTotal) {A : Server} {pa : Nat} {eb : Peer} {now : Time}
    {r : Rnd} {tx : Bytes} (hr : r.WF C) (hp : A.peers[pa]? = some eb)
    (hfree : A.index (.sid r.sid) = none) (hnew : (A.handshake pa).map (·.core.sidi) ≠ some r.sid)
    (htx : Env.size (InitHello.size C) ≤ tx.length) :
    ∃ ih hs0 hs e A1, A.initiation C eb now r = some (ih, hs0) ∧
      A.initiate C pa now r tx = (.ok e.encode, A1) ∧
      Sealed C (InitHello.size C) eb.version.hash eb.spkt .initHello ih.encode e ∧
      A1.peers[pa]? = some { eb with initReq := false, handshake := some hs } ∧
      hs.core = hs0.core ∧ hs.next = .respHello ∧ hs.eski = hs0.eski ∧ hs.epki = hs0.epki ∧
      A1.index (.sid r.sid) = some pa ∧ A1.lookupHandshake r.sid = some pa ∧ SameGlobals A A1 := by
  obtain ⟨⟨eski, epki⟩, hg⟩ := Option.isSome_iff_exists.mp (K.eGen r.kcoins)
  obtain ⟨⟨shk, sctr⟩, he⟩ := Option.isSome_iff_exists.mp (K.sEnc r.scoins eb.spkt)
  have hini : ∃ x, A.initiation C eb now r = some x := by
    unfold initiation; simp only [hg, he]; exact ⟨_, rfl⟩
  obtain ⟨⟨ih, hs0⟩, hini⟩ := hini
  obtain ⟨h1, h2, h3, h4, h5, h6, h7, h8⟩ := initiation_facts hini
  obtain ⟨e0, hc0, hwf0⟩ := castTx_some htx
  have hins : A.hsInsert pa hs0 = some (A.hsPut pa hs0) := by
    rcases hsInsert_cases A pa hs0 with ⟨-, q, -, hq⟩ | ⟨h, -⟩
    · rw [h2, hfree] at hq; cases hq
    · exact h
  have hput : (A.hsPut pa hs0).peers[pa]? = some { eb with initReq := false, handshake := some hs0 } := by
    rw [hsPut_get, if_pos rfl, hp]; rfl
  have hhs : (A.hsPut pa hs0).handshake pa = some hs0 := by simp [Server.handshake, hput]
  have hidx : (A.hsPut pa hs0).index (.sid r.sid) = some pa := by
    rw [hsPut_sid, if_neg (fun h => hnew h.1), if_pos h2.symm]
  let e := sealMsg C { eb with initReq := false, handshake := some hs0 } .initHello { e0 with payload := ih.encode }
  let f : IniHs → IniHs := fun hs =>
      regRetransmit now r.jit { hs with txBuf := cpyMin e.encode hs.txBuf, txCount := 0, txLen := e.encode.length }
  have hget : ((A.hsPut pa hs0).modHs pa f).peers[pa]? = some { eb with initReq := false, handshake := some (f hs0) } := by
    rw [modHs_get, if_pos rfl, hput]; rfl
  have hidx2 : ((A.hsPut pa hs0).modHs pa f).index (.sid r.sid) = some pa := hidx
  refine ⟨ih, hs0, f hs0, e, (A.hsPut pa hs0).modHs pa f, hini, ?_, ?_, hget, rfl, h5, rfl, rfl, hidx2, ?_, ?_⟩
  · unfold Server.initiate
    simp only [hc0, handleInitiation, hp, hini, hins, hput]
    rw [storeMsg_ok hhs]
  · exact sealMsg_sealed L { eb with initReq := false, handshake := some hs0 } .initHello { e0 with payload := ih.encode }
      ⟨hwf0.1, InitHello.encode_length (initiation_WF L hr hini), hwf0.2.2.1, hwf0.2.2.2⟩
  · unfold lookupHandshake
    rw [hidx2]
    simp only
    rw [if_pos]
    show Option.map _ ((((A.hsPut pa hs0).modHs pa f).peers[pa]?).bind _) = _
    rw [hget]
    show some hs0.core.sidi = some r.sid
    rw [h2]
  · exact (hsPut_globals _ _ _).trans (SameGlobals.modPeer _ _ _)

/-! ### No panics in verification -/

theorem ihrVerify_no_panic (K : C.KemTotal) {s : Server} (hix : PeerIdx C s) (ih : InitHello) (h : HashChoice) :
    s.ihrVerify C ih h ≠ .error .panic := by
  unfold ihrVerify
  obtain ⟨shk, hs⟩ := Option.isSome_iff_exists.mp (K.sDec s.sskm ih.sctr)
  simp only [hs]
  split
  · simp
  · split
    · simp
    · rename_i p hp
      obtain ⟨q, hq, -⟩ := (hix _ p).mp hp
      simp only [hq]
      split <;> simp

/-- The responder's answer to an InitHello is not produced under the other hash function. (For
protocol version V03, SHAKE256 is tried first and this is vacuous.) -/
def HelloUnambiguous (C : Crypto) (B : Server) (v : Version) (m : Bytes) : Prop :=
  v = .v02 → ∀ e, Env.decode (InitHello.size C) m = some e →
    ∀ x, B.ihrVerify C (InitHello.decode C e.payload) .shake ≠ .ok x

/-- Message 2: the responder answers an authentic InitHello. -/
theorem respond_ok (L : C.Lawful) (K : C.KemTotal) {B : Server} {pb : Nat} {ea : Peer} {ih : InitHello}
    {e : Env} {core : Core} {now : Time} {r : HashChoice → Rnd} {tx : Bytes}
    (hr : ∀ h, (r h).WF C) (hix : PeerIdx C B) (hctr : B.biscuitCtr.length = 12)
    (hS : Sealed C (InitHello.size C) ea.version.hash B.spkm .initHello ih.encode e) (hwf : ih.WF C)
    (hv : B.ihrVerify C ih ea.version.hash = .ok (pb, core)) (hp : B.peers[pb]? = some ea)
    (hsid : core.sidi = ih.sidi)
    (hun : HelloUnambiguous C B ea.version e.encode) (htx : Env.size (RespHello.size C) ≤ tx.length) :
    ∃ rh eshk sshk e2, B.handleMsg C e.encode tx now r =
        (.ok { exchanged := none, resp := some e2.encode }, B.issued now (r ea.version.hash)) ∧
      Sealed C (RespHello.size C) ea.version.hash ea.spkt .respHello rh.encode e2 ∧
      C.eEncaps (r ea.version.hash).ecoins ih.epki = some (eshk, rh.ecti) ∧
      C.sEncaps (r ea.version.hash).scoins ea.spkt = some (sshk, rh.scti) ∧
      rh.sidr = (r ea.version.hash).sid ∧
      RhrFacts C B (B.issued now (r ea.version.hash)) ih ea core
        (coreAtBiscuit C core (r ea.version.hash).sid ih.sidi ih.epki eshk rh.ecti ea.spkt sshk rh.scti) rh := by
  obtain ⟨rh, eshk, sshk, hrhr, he, hs, hsr, F⟩ :=
    rhr_ok L K B ih pb ea core now (r ea.version.hash) (hr _) hsid hwf hctr
  obtain ⟨out, hc, hwo⟩ := castTx_some htx
  obtain ⟨bs, hcons⟩ := hS.cons
  have hdec : InitHello.decode C e.payload = ih := by rw [hS.payload, InitHello.decode_encode hwf]
  have hpi : (B.issued now (r ea.version.hash)).peers[pb]? = some ea := by rw [issued_eq]; exact hp
  have hck : (B.issued now (r ea.version.hash)).checkSeal C ea.version.hash e = true := by
    have := hS.check
    unfold checkSeal at this ⊢
    rw [issued_eq]; exact this
  have hfin : helloFinish C e out ea.version.hash pb rh (B.issued now (r ea.version.hash)) =
      (.ok { exchanged := none, resp := some (sealMsg C ea .respHello { out with payload := rh.encode }).encode },
        B.issued now (r ea.version.hash)) := by
    unfold helloFinish
    simp only [hpi, hashChoiceMatches, decide_true, Bool.not_true, Bool.false_eq_true, if_false, hck]
  have hok : B.handleInitHello C ih ea.version.hash now (r ea.version.hash) =
      (.ok (pb, rh), B.issued now (r ea.version.hash)) := by
    unfold handleInitHello
    simp only [hv, hp]; exact hrhr
  refine ⟨rh, eshk, sshk, _, ?_, sealMsg_sealed L ea .respHello { out with payload := rh.encode }
    ⟨hwo.1, RespHello.encode_length F.wf, hwo.2.2.1, hwo.2.2.2⟩, he, hs, hsr, F⟩
  have hd : Env.decode (InitHello.size C) e.encode = some e := hS.decode
  unfold handleMsg
  rw [hcons]
  simp only [MsgType.ofU8_toU8, hc]
  rw [← hcons, hd]
  simp only
  unfold msgInitHello
  simp only [hdec]
  cases hver : ea.version with
  | v03 =>
    have hh : ea.version.hash = .shake := by rw [hver]; rfl
    rw [hh] at hok hfin
    rw [hok]
    simp only [Version.hash]
    exact hfin
  | v02 =>
    have hh : ea.version.hash = .blake := by rw [hver]; rfl
    rw [hh] at hok hfin
    have hno := hun hver e hd
    rw [hdec] at hno
    have hnp := ihrVerify_no_panic K hix ih .shake
    have : ∃ x, x ≠ Err.panic ∧ B.handleInitHello C ih .shake now (r .shake) = (.error x, B) := by
      unfold handleInitHello
      cases hi : B.ihrVerify C ih .shake with
      | ok x => exact absurd hi (hno x)
      | error x =>
        refine ⟨x, ?_, rfl⟩
        intro h; rw [hi, h] at hnp; exact hnp rfl
    obtain ⟨x, hx, hsh⟩ := this
    rw [hsh]
    simp only [hx, if_false, hok, Version.hash]
    exact hfin

theorem sessTake_index_le {s : Server} {p q : Nat} {id : Bytes}
    (h : s.index (.sid id) = none ∨ s.index (.sid id) = some q) :
    (s.sessTake p).index (.sid id) = none ∨ (s.sessTake p).index (.sid id) = some q := by
  rw [sessTake_sid]
  split
  · exact Or.inl rfl
  · exact h

/-- Message 3: the initiator accepts the RespHello. -/
theorem accept_ok (L : C.Lawful) {A : Server} {pa : Nat} {eb : Peer} {hs : IniHs} {rh : RespHello}
    {e : Env} {c : Core} {ic : InitConf} {now : Time} {r : HashChoice → Rnd} {tx : Bytes}
    (hS : Sealed C (RespHello.size C) eb.version.hash A.spkm .respHello rh.encode e) (hwf : rh.WF C)
    (hv : A.rhiVerify C rh = .ok (pa, c, ic)) (hp : A.peers[pa]? = some eb) (hhs : eb.handshake = some hs)
    (hidx : A.index (.sid rh.sidi) = some pa) (hsidi : hs.core.sidi = rh.sidi)
    (htx : Env.size (RespHello.size C) ≤ tx.length) (htx2 : Env.size InitConf.size ≤ tx.length) :
    ∃ hs' e3 A2, A.handleMsg C e.encode tx now r = (.ok { exchanged := some pa, resp := some e3.encode }, A2) ∧
      Sealed C InitConf.size eb.version.hash eb.spkt .initConf ic.encode e3 ∧
      A2.peers[pa]? = some { eb with session := some (c.enterLive C now .initiator eb.version.hash), handshake := some hs' } ∧
      hs'.next = .respConf ∧ hs'.core.sidi = hs.core.sidi ∧
      A2.index (.sid rh.sidi) = some pa ∧ A2.lookupHandshake rh.sidi = some pa ∧ SameGlobals A A2 := by
  obtain ⟨out0, hc0, -⟩ := castTx_some htx
  obtain ⟨out, hc, hwo⟩ := castTx_some htx2
  obtain ⟨bs, hcons⟩ := hS.cons
  have hdec : RespHello.decode C e.payload = rh := by rw [hS.payload, RespHello.decode_encode hwf]
  let ses := c.enterLive C now .initiator eb.version.hash
  have hcsid : c.sidi = rh.sidi := by
    obtain ⟨hs1, h1, -, h3, -, h5⟩ := rhiVerify_core hv
    rw [h3, h5]
  have hins : A.sessInsert pa ses = (.ok (), A.sessPut pa ses) := by
    rcases sessInsert_cases A pa ses with ⟨-, q, hq, hi⟩ | ⟨h, -⟩
    · rcases sessTake_index_le (p := pa) (Or.inr hidx) with h | h
      · rw [show ses.sidm = rh.sidi from hcsid, h] at hi; cases hi
      · rw [show ses.sidm = rh.sidi from hcsid, h] at hi; cases hi; exact absurd rfl hq
    · exact h
  let g : IniHs → IniHs := fun hs => { hs with core := hs.core.erase, next := .respConf }
  let A1 := (A.sessPut pa ses).modHs pa g
  have hget : A1.peers[pa]? = some { eb with session := some ses, handshake := some (g hs) } := by
    show ((A.sessPut pa ses).modHs pa g).peers[pa]? = _
    rw [modHs_get, if_pos rfl, sessPut_get, if_pos rfl, hp]
    simp only [Option.map_some, hhs]
  have hhand : A1.handshake pa = some (g hs) := by simp [Server.handshake, hget]
  have hck : A1.checkSeal C eb.version.hash e = true := by
    have hg : SameGlobals A A1 := (sessPut_globals A pa ses).trans (SameGlobals.modPeer _ _ _)
    have := hS.check
    unfold checkSeal at this ⊢
    rw [hg.spkm]; exact this
  let e3 := sealMsg C { eb with session := some ses, handshake := some (g hs) } .initConf { out with payload := ic.encode }
  let f : IniHs → IniHs := fun hs =>
      regRetransmit now (r .shake).jit { hs with txBuf := cpyMin e3.encode hs.txBuf, txCount := 0, txLen := e3.encode.length }
  have hget2 : (A1.modHs pa f).peers[pa]? = some { eb with session := some ses, handshake := some (f (g hs)) } := by
    rw [modHs_get, if_pos rfl, hget]; rfl
  have hidx2 : (A1.modHs pa f).index (.sid rh.sidi) = some pa := by
    show (A.sessPut pa ses).index (.sid rh.sidi) = some pa
    rw [sessPut_sid, if_pos (show rh.sidi = ses.sidm from hcsid.symm)]
  refine ⟨f (g hs), e3, A1.modHs pa f, ?_, ?_, hget2, rfl, rfl, hidx2, ?_, ?_⟩
  · have hd : Env.decode (RespHello.size C) e.encode = some e := hS.decode
    unfold handleMsg
    rw [hcons]
    simp only [MsgType.ofU8_toU8, hc0]
    rw [← hcons, hd]
    simp only
    unfold msgRespHello
    have hh : A.handleRespHello C rh now = (.ok (pa, ic), A1) := by
      unfold handleRespHello
      simp only [hv, hp]
      rw [show A.sessInsert pa (c.enterLive C now .initiator eb.version.hash) = (.ok (), A.sessPut pa ses) from hins]
    simp only [hdec, hc, hh, hget, hck, Bool.not_true, Bool.false_eq_true, if_false]
    rw [storeMsg_ok hhand]
  · exact sealMsg_sealed L { eb with session := some ses, handshake := some (g hs) } .initConf { out with payload := ic.encode }
      ⟨hwo.1, InitConf.encode_length (rhiVerify_ic_WF L hwf hv), hwo.2.2.1, hwo.2.2.2⟩
  · unfold lookupHandshake
    rw [hidx2]
    simp only
    rw [if_pos]
    show Option.map _ (((A1.modHs pa f).peers[pa]?).bind _) = _
    rw [hget2]
    show some hs.core.sidi = some rh.sidi
    rw [hsidi]
  · exact (sessPut_globals A pa ses).trans ((SameGlobals.modPeer _ _ _).trans (SameGlobals.modPeer _ _ _))

theorem loadBiscuit_no_len (L : C.Lawful) {s : Server} {ct sidi sidr : Bytes} {h : HashChoice} {p no c}
    (hct : ct.length = biscuitCtLen) (hok : s.loadBiscuit C ct sidi sidr h = .ok (p, no, c)) : no.length = 12 := by
  obtain ⟨pt', peer'', hx, -, hp'', rfl, -⟩ := loadBiscuit_ok hok
  have := Crypto.xOpen_len L hx
  simp only [biscuitCtLen] at hct
  have hl : pt'.length = Biscuit.size := by simp only [Biscuit.size]; omega
  exact (Biscuit.decode_WF hl).2.1

theorem icrVerify_no_panic (L : C.Lawful) {s : Server} (hix : PeerIdx C s) (hok : AllPeers PeerOk s)
    (ic : InitConf) (hic : ic.WF) (h : HashChoice) : s.icrVerify C ic h ≠ .error .panic := by
  unfold icrVerify
  cases hl : s.loadBiscuit C ic.biscuitCt ic.sidi ic.sidr h with
  | error e =>
    simp only
    intro he
    cases he
    unfold loadBiscuit at hl
    simp only at hl
    split at hl
    · cases hl
    · split at hl
      · cases hl
      · rename_i p hp
        obtain ⟨q, hq, -⟩ := (hix _ p).mp hp
        rw [hq] at hl; cases hl
  | ok x =>
    obtain ⟨p, no, c⟩ := x
    have hno := loadBiscuit_no_len L hic.2.2.1 hl
    obtain ⟨pt, peer, -, -, hp, -, -⟩ := loadBiscuit_ok hl
    simp only
    split
    · simp
    · simp only [hp]
      have hcmp := (ConstantTime.compare_is_integer_comparison no peer.biscuitUsed).1
        (hno.trans (hok p peer hp).used.symm)
      obtain ⟨o, ho⟩ : ∃ o, ConstantTime.compare no peer.biscuitUsed = some o := ⟨_, hcmp⟩
      rw [ho]
      simp only
      split <;> simp

theorem knownInsert_some {s : Server} (hk : KnownIdx s) (p : Nat) (v : Known) : ∃ s', s.knownInsert p v = some s' := by
  unfold knownInsert
  have : ∃ s1, s.knownRemove p = some s1 := by
    unfold knownRemove
    cases h : s.known p with
    | none => exact ⟨_, rfl⟩
    | some k =>
      simp only
      have := (hk k.requestMac p).mpr ⟨k, h, rfl⟩
      rw [this]
      exact ⟨_, rfl⟩
  obtain ⟨s1, h1⟩ := this
  rw [h1]
  exact ⟨_, rfl⟩

/-- The responder has not cached this InitConf, and (for V02) does not accept it under SHAKE256. -/
def ConfUnambiguous (C : Crypto) (B : Server) (v : Version) (m : Bytes) : Prop :=
  ∀ e, Env.decode InitConf.size m = some e →
    B.index (.known (B.knownHash C e)) = none ∧
    (v = .v02 → ∀ x, B.icrVerify C (InitConf.decode e.payload) .shake ≠ .ok x)

theorem knownInsert_globals {s s' : Server} {p : Nat} {v : Known} (h : s.knownInsert p v = some s') : SameGlobals s s' := by
  obtain ⟨s1, h1, rfl⟩ := knownInsert_cases h
  have g1 : SameGlobals s s1 := by
    rcases knownRemove_cases h1 with ⟨-, rfl⟩ | ⟨w, q, -, -, rfl⟩
    · exact .refl _
    · exact ⟨rfl, rfl, rfl, rfl, rfl, rfl, rfl, modPeer_length _ _ _⟩
  exact g1.trans ⟨rfl, rfl, rfl, rfl, rfl, rfl, rfl, modPeer_length _ _ _⟩

/-- Message 4: the responder accepts the InitConf. -/
theorem confirm_ok (L : C.Lawful) {B : Server} {pb : Nat} {ea : Peer} {ic : InitConf} {no : Bytes}
    {e : Env} {c : Core} {now : Time} {r : HashChoice → Rnd} {tx : Bytes}
    (hix : PeerIdx C B) (hpok : AllPeers PeerOk B) (hkn : KnownIdx B)
    (hS : Sealed C InitConf.size ea.version.hash B.spkm .initConf ic.encode e) (hwf : ic.WF)
    (hv : B.icrVerify C ic ea.version.hash = .ok (pb, no, c)) (hp : B.peers[pb]? = some ea)
    (hfree : B.index (.sid ic.sidr) = none ∨ B.index (.sid ic.sidr) = some pb)
    (hun : ConfUnambiguous C B ea.version e.encode)
    (htx : Env.size (RespHello.size C) ≤ tx.length) (htx2 : Env.size EmptyData.size ≤ tx.length) :
    let ses := c.enterLive C now .responder ea.version.hash
    ∃ k e4 B2, B.handleMsg C e.encode tx now r = (.ok { exchanged := some pb, resp := some e4.encode }, B2) ∧
      Sealed C EmptyData.size ea.version.hash ea.spkt .emptyData (ackOf C ses).encode e4 ∧
      B2.peers[pb]? = some { ea with biscuitUsed := no, session := some { ses with txnm := ses.txnm + 1 }, handshake := none, known := some k } ∧
      SameGlobals B B2 := by
  intro ses
  obtain ⟨out0, hc0, -⟩ := castTx_some htx
  obtain ⟨out, hc, hwo⟩ := castTx_some htx2
  obtain ⟨bs, hcons⟩ := hS.cons
  have hdec : InitConf.decode e.payload = ic := by rw [hS.payload, InitConf.decode_encode hwf]
  have hcsid : c.sidi = ic.sidi ∧ c.sidr = ic.sidr := (icrVerify_core hv hp).2
  have hd : Env.decode InitConf.size e.encode = some e := hS.decode
  obtain ⟨hnk, hshake⟩ := hun e hd
  rw [hdec] at hshake
  have hok : B.handleInitConf C ic ea.version.hash now = (.ok (pb, ackOf C ses), B.confirmed pb no ses) := by
    rcases handleInitConf_cases C B ic ea.version.hash now with ⟨x, hx, -⟩ | ⟨p', no', c', peer', hv', hp', hx | ⟨hx, -⟩⟩
    · exfalso
      unfold handleInitConf at hx
      simp only [hv, hp] at hx
      rcases sessInsert_cases (B.modPeer pb (fun q => { q with biscuitUsed := no })) pb ses with ⟨h, q, hq, hi⟩ | ⟨h, -⟩
      · rcases sessTake_index_le (s := B.modPeer pb (fun q => { q with biscuitUsed := no })) (p := pb) (id := ic.sidr) (q := pb) hfree with h' | h'
        · rw [show ses.sidm = ic.sidr from hcsid.2, h'] at hi; cases hi
        · rw [show ses.sidm = ic.sidr from hcsid.2, h'] at hi; cases hi; exact hq rfl
      · rw [show (B.modPeer pb (fun q => { q with biscuitUsed := no })).sessInsert pb (c.enterLive C now .responder ea.version.hash) = _ from h] at hx
        have : (((B.modPeer pb (fun q => { q with biscuitUsed := no })).sessPut pb ses).hsTake pb).session pb = some ses := by
          unfold session
          rw [hsTake_get, sessPut_get, modPeer_get]
          simp only [if_true, hp]; rfl
        simp only [this] at hx
        cases hx
    · exfalso
      rw [hv] at hv'; cases hv'
      rw [hp] at hp'; cases hp'
      unfold handleInitConf at hx
      simp only [hv, hp] at hx
      rcases sessInsert_cases (B.modPeer pb (fun q => { q with biscuitUsed := no })) pb ses with ⟨h, q, hq, hi⟩ | ⟨h, -⟩
      · rcases sessTake_index_le (s := B.modPeer pb (fun q => { q with biscuitUsed := no })) (p := pb) (id := ic.sidr) (q := pb) hfree with h' | h'
        · rw [show ses.sidm = ic.sidr from hcsid.2, h'] at hi; cases hi
        · rw [show ses.sidm = ic.sidr from hcsid.2, h'] at hi; cases hi; exact hq rfl
      · rw [show (B.modPeer pb (fun q => { q with biscuitUsed := no })).sessInsert pb (c.enterLive C now .responder ea.version.hash) = _ from h] at hx
        have : (((B.modPeer pb (fun q => { q with biscuitUsed := no })).sessPut pb ses).hsTake pb).session pb = some ses := by
          unfold session
          rw [hsTake_get, sessPut_get, modPeer_get]
          simp only [if_true, hp]; rfl
        simp only [this] at hx
        cases hx
    · rw [hv] at hv'; cases hv'
      rw [hp] at hp'; cases hp'
      exact hx
  have hkn2 : KnownIdx (B.confirmed pb no ses) := by
    have := (handleInitConf_prims (F := False) L B ic ea.version.hash now hwf).inv (fun _ _ => prim_knownIdx) hkn
    rwa [hok] at this
  let v : Known := ⟨now, (B.confirmed pb no ses).knownHash C e, { out with payload := (ackOf C ses).encode }⟩
  obtain ⟨B2, hB2⟩ := knownInsert_some hkn2 pb v
  have hg1 := confirmed_globals B pb no ses
  have hget1 : (B.confirmed pb no ses).peers[pb]? = some { ea with biscuitUsed := no, session := some { ses with txnm := ses.txnm + 1 }, handshake := none } := by
    rw [confirmed_get, if_pos rfl, hp]; rfl
  have hget2 : B2.peers[pb]? = some { ea with biscuitUsed := no, session := some { ses with txnm := ses.txnm + 1 }, handshake := none, known := some v } := by
    rw [knownInsert_upd hB2 pb, if_pos rfl, hget1]; rfl
  have hck : (B.confirmed pb no ses).checkSeal C ea.version.hash e = true := by
    have := hS.check
    unfold checkSeal at this ⊢
    rw [hg1.spkm]; exact this
  have hfin : confFinish C e out now ea.version.hash pb (ackOf C ses) (B.confirmed pb no ses) =
      (.ok { exchanged := some pb, resp := some (sealMsg C { ea with biscuitUsed := no, session := some { ses with txnm := ses.txnm + 1 }, handshake := none, known := some v } .emptyData { out with payload := (ackOf C ses).encode }).encode }, B2) := by
    unfold confFinish
    simp only [hget1, hashChoiceMatches, decide_true, Bool.not_true, Bool.false_eq_true, if_false, hck]
    rw [show (B.confirmed pb no ses).knownInsert pb { receivedAt := now, requestMac := (B.confirmed pb no ses).knownHash C e, response := { out with payload := (ackOf C ses).encode } } = some B2 from hB2]
    simp only [hget2]
  refine ⟨v, _, B2, ?_, sealMsg_sealed L { ea with biscuitUsed := no, session := some { ses with txnm := ses.txnm + 1 }, handshake := none, known := some v } .emptyData { out with payload := (ackOf C ses).encode } ?_, hget2, hg1.trans (knownInsert_globals hB2)⟩
  · unfold handleMsg
    rw [hcons]
    simp only [MsgType.ofU8_toU8, hc0]
    rw [← hcons, hd]
    simp only
    unfold msgInitConf
    simp only [hc, hnk]
    unfold msgInitConfFresh
    simp only [hdec]
    cases hver : ea.version with
    | v03 =>
      have hh : ea.version.hash = .shake := by rw [hver]; rfl
      rw [hh] at hok hfin
      rw [hok]
      simp only
      rw [hfin, hver]
    | v02 =>
      have hh : ea.version.hash = .blake := by rw [hver]; rfl
      rw [hh] at hok hfin
      have hnp := icrVerify_no_panic L hix hpok ic hwf .shake
      have : ∃ x, x ≠ Err.panic ∧ B.handleInitConf C ic .shake now = (.error x, B) := by
        unfold handleInitConf
        cases hi : B.icrVerify C ic .shake with
        | ok x => exact absurd hi (hshake hver x)
        | error x =>
          refine ⟨x, ?_, rfl⟩
          intro h; rw [hi, h] at hnp; exact hnp rfl
      obtain ⟨x, hx, hsh⟩ := this
      rw [hsh]
      simp only [hx, if_false, hok]
      rw [hfin, hver]
  · refine ⟨hwo.1, EmptyData.encode_length ⟨?_, ?_, ?_⟩, hwo.2.2.1, hwo.2.2.2⟩
    · show c.sidi.length = 4
      rw [hcsid.1]; exact hwf.1
    · exact toLE_length _ _
    · show (C.aeadEnc _ _ _ _).length = 16
      rw [L.aead_len]; rfl

/-- Message 5: the initiator accepts the acknowledgement and ends the handshake. -/
theorem ack_ok (L : C.Lawful) {A : Server} {pa : Nat} {eb : Peer} {hs : IniHs} {ses ack : Session}
    {e : Env} {now : Time} {r : HashChoice → Rnd} {tx : Bytes}
    (hS : Sealed C EmptyData.size eb.version.hash A.spkm .emptyData (ackOf C ack).encode e)
    (hlook : A.lookupHandshake ack.sidt = some pa) (hp : A.peers[pa]? = some eb)
    (hhs : eb.handshake = some hs) (hnext : hs.next = .respConf) (hses : eb.session = some ses)
    (hkey : ses.txkt = ack.txkm) (hn : ses.txnt ≤ ack.txnm) (hn2 : ack.txnm < 256 ^ 8)
    (hsid : ack.sidt.length = 4)
    (htx : Env.size (RespHello.size C) ≤ tx.length) :
    ∃ A3, A.handleMsg C e.encode tx now r = (.ok { exchanged := none, resp := none }, A3) ∧
      A3.peers[pa]? = some { eb with session := some { ses with txnt := ack.txnm }, handshake := none } := by
  obtain ⟨out0, hc0, -⟩ := castTx_some htx
  obtain ⟨bs, hcons⟩ := hS.cons
  have hwf : (ackOf C ack).WF := ⟨hsid, toLE_length _ _, by show (C.aeadEnc _ _ _ _).length = 16; rw [L.aead_len]; rfl⟩
  have hdec : EmptyData.decode e.payload = ackOf C ack := by rw [hS.payload, EmptyData.decode_encode hwf]
  have hd : Env.decode EmptyData.size e.encode = some e := hS.decode
  have hctr : leNat (ackOf C ack).ctr = ack.txnm := leNat_toLE _ _ hn2
  let A1 := A.modPeer pa (fun q => { q with session := some { ses with txnt := ack.txnm } })
  refine ⟨A1.hsTake pa, ?_, ?_⟩
  · unfold handleMsg
    rw [hcons]
    simp only [MsgType.ofU8_toU8, hc0]
    rw [← hcons, hd]
    simp only
    have : A.handleRespConf C e = (.ok pa, A1.hsTake pa) := by
      unfold handleRespConf
      simp only [hdec]
      rw [show (ackOf C ack).sid = ack.sidt from rfl, hlook]
      simp only [hp, hS.check, Bool.not_true, Bool.false_eq_true, if_false, hhs, Option.map_some, hnext, ne_eq, not_true_eq_false, hses, hctr]
      rw [if_neg (by omega)]
      have ho : C.aeadDec ses.txkt (txNonce (ackOf C ack).ctr) [] (ackOf C ack).auth = some [] := by
        rw [hkey]; exact L.aead_dec_enc _ _ _ _
      rw [ho]
    rw [this]
  · rw [hsTake_get, if_pos rfl, modPeer_get, if_pos rfl, hp]; rfl

theorem Reachable.ctrLen (L : C.Lawful) {s} (h : Reachable C s) : s.biscuitCtr.length = 12 := by
  refine Reachable.inv L (P := fun s => s.biscuitCtr.length = 12) (fun _ _ _ _ _ _ _ _ _ _ _ _ => rfl) ?_ h
  intro a b hab ha
  cases hab with
  | ctr => simp only; rw [ConstantTime.increment_length]; exact ha
  | hsPut p peer hs => rw [(hsPut_globals a p hs).biscuitCtr]; exact ha
  | hsTake p => rw [(hsTake_globals a p).biscuitCtr]; exact ha
  | sessTake p => rw [(sessTake_globals a p).biscuitCtr]; exact ha
  | sessPut p peer ses => rw [(sessPut_globals a p ses).biscuitCtr]; exact ha
  | knownPut p peer v s' h1 h2 h3 => rw [(knownInsert_globals h3).biscuitCtr]; exact ha
  | knownRem p s' h3 =>
    rcases knownRemove_cases h3 with ⟨-, rfl⟩ | ⟨w, q, -, -, rfl⟩
    · exact ha
    · exact ha
  | _ => exact ha

/-- Two servers registered with each other: matching static keys, same PSK, protocol version and
OSK domain separator. `eb` is the record of B at A, `ea` the record of A at B. -/
structure Mutual (C : Crypto) (A B : Server) (pa pb : Nat) (eb ea : Peer) : Prop where
  reachA : Reachable C A
  reachB : Reachable C B
  pairA : C.StaticPair A.sskm A.spkm
  pairB : C.StaticPair B.sskm B.spkm
  atA : A.peers[pa]? = some eb
  atB : B.peers[pb]? = some ea
  keyB : eb.spkt = B.spkm
  keyA : ea.spkt = A.spkm
  psk : ea.psk = eb.psk
  version : ea.version = eb.version
  osk : ea.osk = eb.osk

/-- What may have happened to the initiator between its InitHello and the RespHello: anything that
keeps its keys, the registration of the peer and the pending handshake. -/
structure StillPending (s s' : Server) (p : Nat) (sid : Bytes) : Prop where
  sskm : s'.sskm = s.sskm
  spkm : s'.spkm = s.spkm
  peer : ∀ q, s.peers[p]? = some q → ∃ q', s'.peers[p]? = some q' ∧ q'.spkt = q.spkt ∧
    q'.version = q.version ∧ q'.osk = q.osk ∧
    q'.handshake.map (fun h => (h.next, h.core, h.eski, h.epki)) =
      q.handshake.map (fun h => (h.next, h.core, h.eski, h.epki))
  sid : s'.index (.sid sid) = s.index (.sid sid)

/-- The key with which the biscuit in the RespHello `m` was encrypted by server `t`. -/
def biscuitKeyFor (C : Crypto) (t : Server) (m : Bytes) : Store :=
  t.biscuitKeys.get (biscuitKeyBit (RespHello.decode C (Env.view (RespHello.size C) m).payload).biscuitCt)

/-- What may have happened to the responder between its RespHello `m` with biscuit number `no` and the
InitConf: anything that keeps its keys, the biscuit key of `m`, the registration of the peer, accepts
no newer biscuit from that peer, and gives the session id `sid` to nobody else. -/
structure StillOpen (C : Crypto) (s s' : Server) (p : Nat) (no sid m : Bytes) : Prop where
  reach : Reachable C s'
  spkm : s'.spkm = s.spkm
  biscuitKey : (biscuitKeyFor C s' m).value = (biscuitKeyFor C s m).value
  peer : ∀ q, s.peers[p]? = some q → ∃ q', s'.peers[p]? = some q' ∧ q'.spkt = q.spkt ∧
    q'.version = q.version ∧ q'.osk = q.osk ∧ leNat q'.biscuitUsed < leNat no
  sid : s'.index (.sid sid) = none ∨ s'.index (.sid sid) = some p

/-- What may have happened to the initiator between its InitConf and the EmptyData. -/
structure StillUnconfirmed (s s' : Server) (p : Nat) (sid : Bytes) : Prop where
  spkm : s'.spkm = s.spkm
  peer : ∀ q, s.peers[p]? = some q → ∃ q', s'.peers[p]? = some q' ∧
    q'.version = q.version ∧ q'.osk = q.osk ∧ q'.session = q.session ∧
    q'.handshake.map (fun h => (h.next, h.core.sidi)) = q.handshake.map (fun h => (h.next, h.core.sidi))
  sid : s'.index (.sid sid) = s.index (.sid sid)

theorem lookupHandshake_of {s : Server} {p : Nat} {q : Peer} {h : IniHs} {id : Bytes} (hp : s.peers[p]? = some q)
    (hh : q.handshake = some h) (hs : h.core.sidi = id) (hi : s.index (.sid id) = some p) :
    s.lookupHandshake id = some p := by
  unfold lookupHandshake
  rw [hi]
  simp only
  rw [if_pos]
  simp [Server.handshake, hp, hh, hs]

/-- Two messages that differ at most in the cookie, their last 16 bytes. -/
structure SameButCookie (m m' : Bytes) : Prop where
  length : m'.length = m.length
  bytes : m'.take (m.length - 16) = m.take (m.length - 16)

theorem SameButCookie.refl (m : Bytes) : SameButCookie m m := ⟨rfl, rfl⟩

theorem Sealed.sameButCookie {n : Nat} {h : HashChoice} {spk : Bytes} {t : MsgType} {pl : Bytes} {e : Env} (hS : Sealed C n h spk t pl e) {m : Bytes}
    (hm : SameButCookie e.encode m) : ∃ e', m = e'.encode ∧ Sealed C n h spk t pl e' := by
  have hl : e.encode.length = Env.size n := Env.encode_length hS.wf
  have hck := hS.wf.2.2.2
  have htc : e.toCookie.length = Env.size n - 16 := by
    unfold Env.encode at hl; rw [List.length_append, hck] at hl; omega
  have hge : 16 ≤ Env.size n := by unfold Env.size; omega
  have h1 : m.take (Env.size n - 16) = e.toCookie := by
    rw [← hl, hm.bytes, hl]
    unfold Env.encode
    rw [← htc]; exact List.take_left' rfl
  refine ⟨{ e with cookie := m.drop (Env.size n - 16) }, ?_, ⟨hS.wf.1, hS.wf.2.1, hS.wf.2.2.1, ?_⟩, hS.type, hS.payload, hS.mac⟩
  · show m = e.toCookie ++ _
    rw [← h1, List.take_append_drop]
  · have := hm.length
    rw [List.length_drop]; omega

/-- **C01**, with arbitrary other activity between the messages, when the first and the last message arrive with any cookie (as retransmissions do). -/
theorem key_agreement_resent (L : C.Lawful) (K : C.KemTotal) {A B : Server} {pa pb : Nat} {eb ea : Peer}
    (M : Mutual C A B pa pb eb ea)
    {rA : Rnd} {rB : HashChoice → Rnd} (hrA : rA.WF C) (hrB : ∀ h, (rB h).WF C)
    (hsidA : A.index (.sid rA.sid) = none) (hnewA : (A.handshake pa).map (·.core.sidi) ≠ some rA.sid)
    (t1 t2 t3 t4 t5 : Time) (r3 r4 r5 : HashChoice → Rnd) {x1 x2 x3 x4 x5 : Bytes}
    (h1 : Env.size (InitHello.size C) ≤ x1.length) (h2 : Env.size (RespHello.size C) ≤ x2.length)
    (h3 : Env.size (RespHello.size C) ≤ x3.length) (h4 : Env.size (RespHello.size C) ≤ x4.length)
    (h5 : Env.size (RespHello.size C) ≤ x5.length) :
    ∃ m1 A1, A.initiate C pa t1 rA x1 = (.ok m1, A1) ∧
    (∀ m1', SameButCookie m1 m1' → HelloUnambiguous C B ea.version m1' →
      ∃ m2 B1, B.handleMsg C m1' x2 t2 rB = (.ok ⟨none, some m2⟩, B1) ∧ m2.head? = some 0x82 ∧
      ∀ A1', StillPending A1 A1' pa rA.sid →
      ∃ m3 A2, A1'.handleMsg C m2 x3 t3 r3 = (.ok ⟨some pa, some m3⟩, A2) ∧
      ∀ B1', StillOpen C B1 B1' pb B.biscuitCtr (rB ea.version.hash).sid m2 → ConfUnambiguous C B1' ea.version m3 →
      ∃ m4 B2, B1'.handleMsg C m3 x4 t4 r4 = (.ok ⟨some pb, some m4⟩, B2) ∧
      ∃ k, A2.osk C pa = .ok k ∧ B2.osk C pb = .ok k ∧
      ∀ A2' m4', StillUnconfirmed A2 A2' pa rA.sid → SameButCookie m4 m4' →
      ∃ A3, A2'.handleMsg C m4' x5 t5 r5 = (.ok ⟨none, none⟩, A3) ∧
        A3.handshake pa = none ∧ A3.osk C pa = .ok k) := by
  have hixB := Reachable.peerIdx L M.reachB
  have hctr := Reachable.ctrLen L M.reachB
  obtain ⟨ih, hs0, hs, e1, A1, hini, hcall, hS1, hA1, hcore, hnext, heski, hepki, hidx1, hlook1, hg1⟩ :=
    initiate_ok (now := t1) L K hrA M.atA hsidA hnewA h1
  refine ⟨e1.encode, A1, hcall, ?_⟩
  intro m1' hm1' hun
  obtain ⟨e1, rfl, hS1⟩ := hS1.sameButCookie hm1'
  obtain ⟨f1, f2, f3, f4, f5, f6, f7, f8⟩ := initiation_facts hini
  have hih := initiation_WF L hrA hini
  have hfind : B.findPeer (A.pidm C eb.version.hash) = some pb := by
    refine (hixB _ pb).mpr ⟨ea, M.atB, ?_⟩
    unfold pidt pidm
    rw [M.version, M.keyA]
  have hver := ihr_of_initiation L hini M.keyB M.pairB hfind M.atB M.keyA M.psk
  rw [← M.version] at hver
  rw [← M.version, M.keyB] at hS1
  obtain ⟨rh, eshk, sshk, e2, hcall2, hS2, hee, hse, hsr, F⟩ :=
    respond_ok (now := t2) L K hrB hixB hctr hS1 hih hver M.atB (f2.trans f6.symm) hun h2
  refine ⟨e2.encode, _, hcall2, (by obtain ⟨bs, hbs⟩ := hS2.cons; rw [hbs]; rfl), ?_⟩
  intro A1' SP
  obtain ⟨eb1, hA1', k1, k2, k3, k4⟩ := SP.peer _ hA1
  simp only [Option.map_some] at k1 k2 k3 k4
  obtain ⟨hs1, hhs1, hx⟩ := Option.map_eq_some_iff.mp k4
  simp only [Prod.mk.injEq] at hx
  obtain ⟨n1, n2, n3, n4⟩ := hx
  have hidx1' : A1'.index (.sid rA.sid) = some pa := SP.sid.trans hidx1
  have hcsid : hs1.core.sidi = rA.sid := by rw [n2, hcore]; exact f2
  have hlook1' := lookupHandshake_of hA1' hhs1 hcsid hidx1'
  have hsidi : ih.sidi = rA.sid := f6
  -- KEM correctness
  have heK : C.eDecaps hs1.eski rh.ecti = some eshk := by
    rw [n3, heski]
    have := hini
    unfold initiation at this
    simp only at this
    split at this
    · cases this
    · rename_i eski epki hk
      split at this
      · cases this
      · simp only [Option.some.injEq, Prod.mk.injEq] at this
        obtain ⟨rfl, rfl⟩ := this
        exact L.eKem _ _ _ _ _ _ hk hee
  have hepk : hs1.epki = ih.epki := by
    rw [n4, hepki]
    have := hini
    unfold initiation at this
    simp only at this
    split at this
    · cases this
    · split at this
      · cases this
      · simp only [Option.some.injEq, Prod.mk.injEq] at this
        obtain ⟨rfl, rfl⟩ := this
        rfl
  have hsK : C.sDecaps A1'.sskm rh.scti = some sshk := by
    rw [SP.sskm, hg1.sskm]
    rw [M.keyA] at hse
    exact M.pairA _ _ _ hse
  rw [← hsr] at F
  have hrhi := rhi_ok L (A := A1') (hs := hs1) (pa := pa) F (by rw [hsidi]; exact hlook1')
    (by simp [Server.handshake, hA1', hhs1]) (n1.trans hnext) (n2.trans hcore) hepk heK hsK
    (by rw [M.keyA, SP.spkm, hg1.spkm])
  simp only at hrhi
  rw [M.keyA, ← hg1.spkm, ← SP.spkm, M.version, ← k2] at hS2
  have hrs : rh.sidi = rA.sid := F.sidi.trans hsidi
  have hsizes : Env.size InitConf.size ≤ Env.size (RespHello.size C) ∧ Env.size EmptyData.size ≤ Env.size (RespHello.size C) := by
    simp only [Env.size, InitConf.size, RespHello.size, EmptyData.size, biscuitCtLen]; omega
  obtain ⟨hs2, e3, A2, hcall3, hS3, hA2, hnext2, hsid2, hidx2, hlook2, hg2⟩ :=
    accept_ok (now := t3) (r := r3) L hS2 F.wf hrhi hA1' hhs1 (by rw [hrs]; exact hidx1') (by rw [hcsid, hrs]) h3 (by omega)
  refine ⟨e3.encode, A2, hcall3, ?_⟩
  intro B1' SO hunc
  have hkey : ∀ t : Server, biscuitKeyFor C t e2.encode = t.biscuitKeys.get (biscuitKeyBit rh.biscuitCt) := by
    intro t
    unfold biscuitKeyFor
    rw [Env.view_encode hS2.wf, hS2.payload, RespHello.decode_encode F.wf]
  have hBi : (B.issued t2 (rB ea.version.hash)).peers[pb]? = some ea := by rw [issued_eq]; exact M.atB
  have hBspk : (B.issued t2 (rB ea.version.hash)).spkm = B.spkm := by rw [issued_eq]
  obtain ⟨ea1, hB1', j1, j2, j3, j4⟩ := SO.peer _ hBi
  have hix1 := Reachable.peerIdx L SO.reach
  have hpok1 := Reachable.peerOk L SO.reach
  have hkn1 := Reachable.knownIdx L SO.reach
  have hpid : pidt C ea1 = pidt C ea := by unfold pidt; rw [j1, j2]
  obtain ⟨o, ho, hpos⟩ : ∃ o : Int32, ConstantTime.compare B.biscuitCtr ea1.biscuitUsed = some o ∧ o > 0 := by
    refine ⟨1, ?_, by decide⟩
    rw [(ConstantTime.compare_is_integer_comparison _ _).1 (hctr.trans (hpok1 pb ea1 hB1').used.symm)]
    rw [if_neg (by omega), if_neg (by omega)]
  have hicr := icr_ok L (B' := B1') (ea' := ea1) (pb := pb) F hctr (f2.trans f6.symm) (by rw [f1, M.version])
    (SO.spkm.trans hBspk) (by simpa only [hkey] using SO.biscuitKey) ((hix1 _ pb).mpr ⟨ea1, hB1', hpid⟩) hB1' j2 ho hpos
  simp only at hicr
  rw [← j2] at hicr hunc
  have hicwf := rhiVerify_ic_WF L F.wf hrhi
  rw [k1, k2, ← M.version, ← j2, M.keyB, ← hBspk, ← SO.spkm] at hS3
  have hfree : B1'.index (.sid rh.sidr) = none ∨ B1'.index (.sid rh.sidr) = some pb := by
    rw [hsr]; exact SO.sid
  obtain ⟨kn, e4, B2, hcall4, hS4, hB2, hg4⟩ :=
    confirm_ok (now := t4) (r := r4) L hix1 hpok1 hkn1 hS3 hicwf hicr hB1' hfree hunc h4 (by omega)
  refine ⟨e4.encode, B2, hcall4, ?_⟩
  have hhc : ∀ c : Core, (confirm C c rh.biscuitCt rh.sidi rh.sidr).2.hc = c.hc := fun _ => rfl
  let cf : Core := (confirm C (coreAtBiscuit C hs0.core rh.sidr ih.sidi ih.epki eshk rh.ecti ea.spkt sshk rh.scti) rh.biscuitCt rh.sidi rh.sidr).2
  refine ⟨HashDomain.mix C cf.hc cf.ck (eb.osk.compress C eb.version.hash), ?_, ?_, ?_⟩
  · unfold osk oskWith
    simp only [hA2, k3, k2]
    rfl
  · unfold osk oskWith
    simp only [hB2, j3, j2, M.version, M.osk]
    rfl
  · intro A2' m4' SU hm4'
    obtain ⟨e4, rfl, hS4⟩ := hS4.sameButCookie hm4'
    obtain ⟨eb2, hA2', l1, l2, l3, l4⟩ := SU.peer _ hA2
    simp only [Option.map_some] at l1 l2 l3 l4
    obtain ⟨hs3, hhs3, hx⟩ := Option.map_eq_some_iff.mp l4
    simp only [Prod.mk.injEq] at hx
    have hs3sid : hs3.core.sidi = rA.sid := by rw [hx.2, hsid2, hcsid]
    have hlook := lookupHandshake_of hA2' hhs3 hs3sid (by rw [SU.sid, ← hrs]; exact hidx2)
    rw [j1, j2, M.version, M.keyA, ← hg1.spkm, ← SP.spkm, ← hg2.spkm, ← SU.spkm] at hS4
    have hspk : ea.spkt = A2'.spkm := by rw [M.keyA, SU.spkm, hg2.spkm, SP.spkm, hg1.spkm]
    obtain ⟨A3, hcall5, hA3⟩ := ack_ok (now := t5) (r := r5) L (hS := by rw [l1, k2]; exact hS4) (by rw [show (Core.enterLive C _ t4 .responder _).sidt = rh.sidi from F.sidi.symm ▸ (f2.trans f6.symm), hrs]; exact hlook) hA2' hhs3 (hx.1.trans hnext2) l3 (by rw [k2, hspk]; rfl) (Nat.le_refl _) (by show 0 < 256 ^ 8; decide) (by rw [show (Core.enterLive C _ t4 .responder _).sidt = rh.sidi from F.sidi.symm ▸ (f2.trans f6.symm), hrs]; exact hrA.sid) h5
    refine ⟨A3, hcall5, ?_, ?_⟩
    · simp [Server.handshake, hA3]
    · unfold osk oskWith
      simp only [hA3, l2, k3, l1, k2]
      rfl

/-- **C01**, with arbitrary other activity between the messages. -/
theorem key_agreement_interleaved (L : C.Lawful) (K : C.KemTotal) {A B : Server} {pa pb : Nat} {eb ea : Peer}
    (M : Mutual C A B pa pb eb ea)
    {rA : Rnd} {rB : HashChoice → Rnd} (hrA : rA.WF C) (hrB : ∀ h, (rB h).WF C)
    (hsidA : A.index (.sid rA.sid) = none) (hnewA : (A.handshake pa).map (·.core.sidi) ≠ some rA.sid)
    (t1 t2 t3 t4 t5 : Time) (r3 r4 r5 : HashChoice → Rnd) {x1 x2 x3 x4 x5 : Bytes}
    (h1 : Env.size (InitHello.size C) ≤ x1.length) (h2 : Env.size (RespHello.size C) ≤ x2.length)
    (h3 : Env.size (RespHello.size C) ≤ x3.length) (h4 : Env.size (RespHello.size C) ≤ x4.length)
    (h5 : Env.size (RespHello.size C) ≤ x5.length) :
    ∃ m1 A1, A.initiate C pa t1 rA x1 = (.ok m1, A1) ∧
    (HelloUnambiguous C B ea.version m1 →
      ∃ m2 B1, B.handleMsg C m1 x2 t2 rB = (.ok ⟨none, some m2⟩, B1) ∧
      ∀ A1', StillPending A1 A1' pa rA.sid →
      ∃ m3 A2, A1'.handleMsg C m2 x3 t3 r3 = (.ok ⟨some pa, some m3⟩, A2) ∧
      ∀ B1', StillOpen C B1 B1' pb B.biscuitCtr (rB ea.version.hash).sid m2 → ConfUnambiguous C B1' ea.version m3 →
      ∃ m4 B2, B1'.handleMsg C m3 x4 t4 r4 = (.ok ⟨some pb, some m4⟩, B2) ∧
      ∃ k, A2.osk C pa = .ok k ∧ B2.osk C pb = .ok k ∧
      ∀ A2', StillUnconfirmed A2 A2' pa rA.sid →
      ∃ A3, A2'.handleMsg C m4 x5 t5 r5 = (.ok ⟨none, none⟩, A3) ∧
        A3.handshake pa = none ∧ A3.osk C pa = .ok k) := by
  obtain ⟨m1, A1, hc1, g1⟩ := key_agreement_resent L K M hrA hrB hsidA hnewA t1 t2 t3 t4 t5 r3 r4 r5 h1 h2 h3 h4 h5
  refine ⟨m1, A1, hc1, fun hun => ?_⟩
  obtain ⟨m2, B1, hc2, -, g2⟩ := g1 m1 (.refl _) hun
  refine ⟨m2, B1, hc2, fun A1' SP => ?_⟩
  obtain ⟨m3, A2, hc3, g3⟩ := g2 A1' SP
  refine ⟨m3, A2, hc3, fun B1' SO hcu => ?_⟩
  obtain ⟨m4, B2, hc4, k, k1, k2, g4⟩ := g3 B1' SO hcu
  exact ⟨m4, B2, hc4, k, k1, k2, fun A2' SU => g4 A2' m4 SU (.refl _)⟩

/-- **C01.** The four messages delivered one after the other: every call succeeds, each side reports
the exchange with the right peer, both `osk()` calls return the same key, and the initiator's
handshake is over at the end. -/
theorem key_agreement (L : C.Lawful) (K : C.KemTotal) {A B : Server} {pa pb : Nat} {eb ea : Peer}
    (M : Mutual C A B pa pb eb ea)
    {rA : Rnd} {rB : HashChoice → Rnd} (hrA : rA.WF C) (hrB : ∀ h, (rB h).WF C)
    -- the random session ids are unused, and the responder has not seen its current biscuit number
    (hsidA : A.index (.sid rA.sid) = none) (hnewA : (A.handshake pa).map (·.core.sidi) ≠ some rA.sid)
    (hsidB : B.index (.sid (rB ea.version.hash).sid) = none)
    (hused : leNat ea.biscuitUsed < leNat B.biscuitCtr)
    (t1 t2 t3 t4 t5 : Time) (r3 r4 r5 : HashChoice → Rnd) {x1 x2 x3 x4 x5 : Bytes}
    (h1 : Env.size (InitHello.size C) ≤ x1.length) (h2 : Env.size (RespHello.size C) ≤ x2.length)
    (h3 : Env.size (RespHello.size C) ≤ x3.length) (h4 : Env.size (RespHello.size C) ≤ x4.length)
    (h5 : Env.size (RespHello.size C) ≤ x5.length) :
    ∃ m1 A1, A.initiate C pa t1 rA x1 = (.ok m1, A1) ∧
    (HelloUnambiguous C B ea.version m1 →
      ∃ m2 B1, B.handleMsg C m1 x2 t2 rB = (.ok ⟨none, some m2⟩, B1) ∧
      ∃ m3 A2, A1.handleMsg C m2 x3 t3 r3 = (.ok ⟨some pa, some m3⟩, A2) ∧
      (ConfUnambiguous C B1 ea.version m3 →
        ∃ m4 B2, B1.handleMsg C m3 x4 t4 r4 = (.ok ⟨some pb, some m4⟩, B2) ∧
        ∃ A3, A2.handleMsg C m4 x5 t5 r5 = (.ok ⟨none, none⟩, A3) ∧
        A3.handshake pa = none ∧
        ∃ k, A2.osk C pa = .ok k ∧ A3.osk C pa = .ok k ∧ B2.osk C pb = .ok k)) := by
  obtain ⟨m1, A1, hc1, g1⟩ := key_agreement_interleaved L K M hrA hrB hsidA hnewA t1 t2 t3 t4 t5 r3 r4 r5 h1 h2 h3 h4 h5
  refine ⟨m1, A1, hc1, fun hun => ?_⟩
  obtain ⟨m2, B1, hc2, g2⟩ := g1 hun
  refine ⟨m2, B1, hc2, ?_⟩
  obtain ⟨m3, A2, hc3, g3⟩ := g2 A1 ⟨rfl, rfl, fun q hq => ⟨q, hq, rfl, rfl, rfl, rfl⟩, rfl⟩
  refine ⟨m3, A2, hc3, fun hun2 => ?_⟩
  have hB1 : B1 = B ∨ ∃ h, B1 = B.issued t2 (rB h) := by
    have hst : B1 = (B.handleMsg C m1 x2 t2 rB).2 := by rw [hc2]
    have hS : ∃ e, Env.decode (InitHello.size C) m1 = some e ∧ ∃ bs, m1 = MsgType.initHello.toU8 :: bs := by
      obtain ⟨ih, hs0, hs, e1, A1', -, hcall, hS1, -⟩ := initiate_ok (now := t1) L K hrA M.atA hsidA hnewA h1
      rw [hc1] at hcall
      cases hcall
      exact ⟨e1, hS1.decode, hS1.cons⟩
    obtain ⟨e, he, bs, hbs⟩ := hS
    unfold handleMsg at hst
    rw [hbs] at hst
    simp only [MsgType.ofU8_toU8] at hst
    rw [← hbs, he] at hst
    obtain ⟨out, ho, -⟩ := castTx_some h2
    simp only [ho] at hst
    rcases msgInitHello_state C B e out t2 rB with h | ⟨h, hh⟩
    · left; rw [hst, h]
    · right; exact ⟨h, by rw [hst, hh]⟩
  have hreach : Reachable C B1 := by
    have : B1 = B.step C (.handleMsg m1 x2 t2 rB) := by simp only [Server.step, hc2]
    rw [this]; exact .step _ _ M.reachB hrB
  have hpeers : B1.peers = B.peers ∧ B1.index = B.index ∧ B1.spkm = B.spkm := by
    rcases hB1 with rfl | ⟨h, rfl⟩
    · exact ⟨rfl, rfl, rfl⟩
    · rw [issued_eq]; exact ⟨rfl, rfl, rfl⟩
  obtain ⟨m4, B2, hc4, k, hk1, hk2, g4⟩ := g3 B1
    ⟨hreach, rfl, rfl, fun q hq => ⟨q, hq, rfl, rfl, rfl, by rw [hpeers.1, M.atB] at hq; cases hq; exact hused⟩, Or.inl (by rw [hpeers.2.1]; exact hsidB)⟩ hun2
  obtain ⟨A3, hc5, hn, hk3⟩ := g4 A2 ⟨rfl, fun q hq => ⟨q, hq, rfl, rfl, rfl, rfl⟩, rfl⟩
  exact ⟨m4, B2, hc4, A3, hc5, hn, k, hk1, hk3, hk2⟩

end

/-! ### A concrete run -/
namespace Ex

/-- Outcome of a complete run between two toy servers: results of the five calls and the keys. -/
def fullRun (v : Version) : Option (Option Nat × Option Nat × Except Err Bytes × Except Err Bytes × Bool) :=
  let A := server skA skB v
  let B := server skB skA v
  match A.initiate Toy.crypto 0 0 (rnd 9) buf with
  | (.ok m1, A1) =>
    match B.handleMsg Toy.crypto m1 buf 1 (fun _ => rnd 20) with
    | (.ok ⟨_, some m2⟩, B1) =>
      match A1.handleMsg Toy.crypto m2 buf 2 (fun _ => rnd 30) with
      | (.ok ⟨xa, some m3⟩, A2) =>
        match B1.handleMsg Toy.crypto m3 buf 3 (fun _ => rnd 40) with
        | (.ok ⟨xb, some m4⟩, B2) =>
          match A2.handleMsg Toy.crypto m4 buf 4 (fun _ => rnd 50) with
          | (.ok _, A3) => some (xa, xb, A3.osk Toy.crypto 0, B2.osk Toy.crypto 0, (A3.handshake 0).isNone)
          | _ => none
        | _ => none
      | _ => none
    | _ => none
  | _ => none

theorem registered (v : Version) : Mutual Toy.crypto (server skA skB v) (server skB skA v) 0 0
    (freshPeer (some (toLE 32 77)) skB v .wireguardPsk) (freshPeer (some (toLE 32 77)) skA v .wireguardPsk) where
  reachA := server_reachable _ _ _
  reachB := server_reachable _ _ _
  pairA := Toy.staticPair _
  pairB := Toy.staticPair _
  atA := rfl
  atB := rfl
  keyB := rfl
  keyA := rfl
  psk := rfl
  version := rfl
  osk := rfl

end Ex

/-- C01: the hypotheses of `key_agreement` hold of two freshly configured toy servers, for both
protocol versions, and the run ends with equal keys. -/
example (v : Version) : Mutual Toy.crypto (Ex.server Ex.skA Ex.skB v) (Ex.server Ex.skB Ex.skA v) 0 0
      (freshPeer (some (toLE 32 77)) Ex.skB v .wireguardPsk) (freshPeer (some (toLE 32 77)) Ex.skA v .wireguardPsk) ∧
    (Ex.server Ex.skA Ex.skB v).index (.sid (Ex.rnd 9).sid) = none ∧
    Env.size (InitHello.size Toy.crypto) ≤ Ex.buf.length ∧ Env.size (RespHello.size Toy.crypto) ≤ Ex.buf.length ∧
    leNat (freshPeer (some (toLE 32 77)) Ex.skA v .wireguardPsk).biscuitUsed < leNat (Ex.server Ex.skB Ex.skA v).biscuitCtr :=
  ⟨Ex.registered v, by cases v <;> decide +kernel, by decide +kernel, by decide +kernel, by cases v <;> decide +kernel⟩

example (v : Version) : ∃ k, Ex.fullRun v = some (some 0, some 0, .ok k, .ok k, true) := by
  have h : (match Ex.fullRun v with
    | some (some 0, some 0, .ok k, .ok k', true) => k == k'
    | _ => false) = true := by cases v <;> decide +kernel
  split at h
  · rename_i k k' hk
    rw [hk]
    exact ⟨k, by rw [eq_of_beq h]⟩
  · cases h

end Verif
