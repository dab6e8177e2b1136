import Verif.Thm.Lemmas
/-
Inversion lemmas: each handler's result and final state, path by path. These are helper lemmas;
the property theorems are in the files named after the properties.
-/
namespace Verif.Server
open HashDomain

/-! ### Session insertion -/

/-- The state after a successful `SessionPtr::insert`. -/
def sessPut (s : Server) (p : Nat) (ses : Session) : Server :=
  ({ s.sessTake p with index := (s.sessTake p).index.set (.sid ses.sidm) (some p) } : Server).modPeer p
    (fun q => { q with session := some ses })

theorem sessInsert_cases (s : Server) (p : Nat) (ses : Session) :
    (s.sessInsert p ses = (.error .sidInUse, s.sessTake p) ∧
      ∃ q, q ≠ p ∧ (s.sessTake p).index (.sid ses.sidm) = some q) ∨
    (s.sessInsert p ses = (.ok (), s.sessPut p ses) ∧
      ((s.sessTake p).index (.sid ses.sidm) = none ∨ (s.sessTake p).index (.sid ses.sidm) = some p)) := by
  unfold sessInsert
  simp only
  cases h : (s.sessTake p).registerSession ses.sidm p with
  | none => exact Or.inl ⟨rfl, registerSession_none.mp h⟩
  | some s2 =>
    obtain ⟨rfl, h2⟩ := registerSession_eq h
    exact Or.inr ⟨rfl, h2⟩

/-- The state after a successful `IniHsPtr::insert`. -/
def hsPut (s : Server) (p : Nat) (hs : IniHs) : Server :=
  (({ s with index := s.index.set (.sid hs.core.sidi) (some p) } : Server).hsTake p).modPeer p
    (fun q => { q with initReq := false, handshake := some hs })

theorem hsInsert_cases (s : Server) (p : Nat) (hs : IniHs) :
    (s.hsInsert p hs = none ∧ ∃ q, q ≠ p ∧ s.index (.sid hs.core.sidi) = some q) ∨
    (s.hsInsert p hs = some (s.hsPut p hs) ∧
      (s.index (.sid hs.core.sidi) = none ∨ s.index (.sid hs.core.sidi) = some p)) := by
  unfold hsInsert
  cases h : s.registerSession hs.core.sidi p with
  | none => exact Or.inl ⟨rfl, registerSession_none.mp h⟩
  | some s2 =>
    obtain ⟨rfl, h2⟩ := registerSession_eq h
    exact Or.inr ⟨rfl, h2⟩

theorem sessPut_get (s : Server) (p : Nat) (ses : Session) (i : Nat) :
    (s.sessPut p ses).peers[i]? =
      if i = p then s.peers[i]?.map (fun q => { q with session := some ses }) else s.peers[i]? := by
  unfold sessPut
  rw [modPeer_get]
  show (if i = p then (s.sessTake p).peers[i]?.map _ else (s.sessTake p).peers[i]?) = _
  rw [sessTake_get]
  by_cases h : i = p
  · simp only [h, if_true, Option.map_map]; rfl
  · simp only [h, if_false]

theorem hsPut_get (s : Server) (p : Nat) (hs : IniHs) (i : Nat) :
    (s.hsPut p hs).peers[i]? =
      if i = p then s.peers[i]?.map (fun q => { q with initReq := false, handshake := some hs })
      else s.peers[i]? := by
  unfold hsPut
  rw [modPeer_get, hsTake_get]
  by_cases h : i = p
  · simp only [h, if_true, Option.map_map]; rfl
  · simp only [h, if_false]

theorem sessPut_globals (s : Server) (p ses) : SameGlobals s (s.sessPut p ses) := by
  unfold sessPut
  refine SameGlobals.trans (sessTake_globals s p) (SameGlobals.trans ?_ (SameGlobals.modPeer _ _ _))
  exact ⟨rfl, rfl, rfl, rfl, rfl, rfl, rfl, rfl⟩

theorem hsPut_globals (s : Server) (p hs) : SameGlobals s (s.hsPut p hs) := by
  unfold hsPut
  refine SameGlobals.trans ?_ (SameGlobals.trans (hsTake_globals _ p) (SameGlobals.modPeer _ _ _))
  exact ⟨rfl, rfl, rfl, rfl, rfl, rfl, rfl, rfl⟩

@[simp] theorem sessPut_length (s : Server) (p ses) : (s.sessPut p ses).peers.length = s.peers.length := by
  unfold sessPut
  rw [modPeer_length]; exact sessTake_length s p

@[simp] theorem hsPut_length (s : Server) (p hs) : (s.hsPut p hs).peers.length = s.peers.length := by
  unfold hsPut
  rw [modPeer_length, hsTake_length]

theorem modHs_get (s : Server) (p : Nat) (f : IniHs → IniHs) (i : Nat) :
    (s.modHs p f).peers[i]? =
      if i = p then s.peers[i]?.map (fun q => { q with handshake := q.handshake.map f })
      else s.peers[i]? := modPeer_get _ _ _ _

/-! ### Verification parts -/

theorem loadBiscuit_ok {C : Crypto} {s : Server} {ct sidi sidr : Bytes} {h : HashChoice} {p no c}
    (hok : s.loadBiscuit C ct sidi sidr h = .ok (p, no, c)) :
    ∃ pt peer, C.xOpen (s.biscuitKeys.get (biscuitKeyBit ct)).value (biscuitAd C h s.spkm sidi sidr) ct = some pt ∧
      s.findPeer (Biscuit.decode pt).pidi = some p ∧ s.peers[p]? = some peer ∧
      no = (Biscuit.decode pt).biscuitNo ∧
      c = ({ sidi := sidi, sidr := sidr, ck := (Biscuit.decode pt).ck, hc := peer.version.hash } : Core).mix C ct := by
  unfold loadBiscuit at hok
  simp only at hok
  split at hok
  · cases hok
  · rename_i pt hpt
    split at hok
    · cases hok
    · rename_i p' hp'
      split at hok
      · cases hok
      · rename_i peer hpeer
        simp only [Except.ok.injEq, Prod.mk.injEq] at hok
        obtain ⟨rfl, rfl, rfl⟩ := hok
        exact ⟨pt, peer, hpt, hp', hpeer, rfl, rfl⟩

theorem icrVerify_ok {C : Crypto} {s : Server} {ic : InitConf} {h : HashChoice} {p no c}
    (hok : s.icrVerify C ic h = .ok (p, no, c)) :
    ∃ c0 peer pt o, s.loadBiscuit C ic.biscuitCt ic.sidi ic.sidr h = .ok (p, no, c0) ∧
      ((((c0.encryptAndMix C []).2.mix C ic.sidi).mix C ic.sidr).decryptAndMix C ic.auth = some (pt, c)) ∧
      s.peers[p]? = some peer ∧ ConstantTime.compare no peer.biscuitUsed = some o ∧ o > 0 := by
  unfold icrVerify at hok
  split at hok
  · cases hok
  · rename_i p' no' c' hl
    simp only at hok
    split at hok
    · cases hok
    · rename_i pt c2 hd
      split at hok
      · cases hok
      · rename_i peer hpeer
        split at hok
        · cases hok
        · rename_i o ho
          split at hok
          · rename_i hpos
            simp only [Except.ok.injEq, Prod.mk.injEq] at hok
            obtain ⟨rfl, rfl, rfl⟩ := hok
            exact ⟨c', peer, pt, o, hl, hd, hpeer, ho, hpos⟩
          · cases hok

theorem ihrVerify_ok {C : Crypto} {s : Server} {ih : InitHello} {h : HashChoice} {p c}
    (hok : s.ihrVerify C ih h = .ok (p, c)) :
    ∃ shk pid c1 pt peer, C.sDecaps s.sskm ih.sctr = some shk ∧
      ((((((Core.zero h).init C s.spkm).mix C ih.sidi).mix C ih.epki).mixKem C s.spkm shk ih.sctr).decryptAndMix C ih.pidiCt).map
          (fun x => (x.1, x.2.ck)) = some (pid, c1) ∧
      s.findPeer pid = some p ∧ s.peers[p]? = some peer ∧
      (((({ sidi := ih.sidi, sidr := (Core.zero h).sidr, ck := c1, hc := h } : Core).mix C peer.spkt).mix C peer.psk).decryptAndMix C ih.auth = some (pt, c)) := by
  unfold ihrVerify at hok
  simp only at hok
  split at hok
  · cases hok
  · rename_i shk hshk
    split at hok
    · cases hok
    · rename_i pid c1 hd
      split at hok
      · cases hok
      · rename_i p' hp'
        split at hok
        · cases hok
        · rename_i peer hpeer
          split at hok
          · cases hok
          · rename_i pt c2 hd2
            simp only [Except.ok.injEq, Prod.mk.injEq] at hok
            obtain ⟨rfl, rfl⟩ := hok
            refine ⟨shk, pid, c1.ck, pt, peer, hshk, ?_, hp', hpeer, ?_⟩
            · simp only [Core.decryptAndMix] at hd ⊢
              split at hd
              · cases hd
              · rename_i pt' hpt'
                simp only [Option.some.injEq, Prod.mk.injEq] at hd
                obtain ⟨rfl, rfl⟩ := hd
                have h1 : C.aeadDec ((((((Core.zero h).init C s.spkm).mix C ih.sidi).mix C ih.epki).mixKem C s.spkm shk ih.sctr).encKey C) Core.nonce0 [] ih.pidiCt = some pt' := hpt'
                rw [h1]; rfl
            · have : c1 = { sidi := ih.sidi, sidr := (Core.zero h).sidr, ck := c1.ck, hc := h } := by
                simp only [Core.decryptAndMix] at hd
                split at hd
                · cases hd
                · simp only [Option.some.injEq, Prod.mk.injEq] at hd
                  obtain ⟨_, rfl⟩ := hd
                  rfl
              rw [← this]; exact hd2

theorem rhiVerify_ok {C : Crypto} {s : Server} {rh : RespHello} {p c ic}
    (hok : s.rhiVerify C rh = .ok (p, c, ic)) :
    ∃ hs eshk sshk pt c1, s.lookupHandshake rh.sidi = some p ∧ s.handshake p = some hs ∧
      hs.next = .respHello ∧ C.eDecaps hs.eski rh.ecti = some eshk ∧
      C.sDecaps s.sskm rh.scti = some sshk ∧
      ((((((({ hs.core with sidr := rh.sidr } : Core).mix C rh.sidr).mix C rh.sidi).mixKem C hs.epki eshk rh.ecti).mixKem C
        s.spkm sshk rh.scti).mix C rh.biscuitCt).decryptAndMix C rh.auth = some (pt, c1)) ∧
      c = (((c1.mix C rh.sidi).mix C rh.sidr).encryptAndMix C []).2 ∧
      ic = ⟨rh.sidi, rh.sidr, rh.biscuitCt, (((c1.mix C rh.sidi).mix C rh.sidr).encryptAndMix C []).1⟩ := by
  unfold rhiVerify at hok
  split at hok
  · cases hok
  · rename_i p' hl
    split at hok
    · cases hok
    · rename_i hs hhs
      split at hok
      · cases hok
      · rename_i hn
        simp only at hok
        split at hok
        · cases hok
        · rename_i eshk he
          split at hok
          · cases hok
          · rename_i sshk hs'
            split at hok
            · cases hok
            · rename_i pt c1 hd
              simp only [Except.ok.injEq, Prod.mk.injEq] at hok
              obtain ⟨rfl, rfl, rfl⟩ := hok
              exact ⟨hs, eshk, sshk, pt, c1, hl, hhs, by simpa using hn, he, hs', hd, rfl, rfl⟩

/-! ### Handlers -/

/-- The state after a biscuit was issued: counter bumped, biscuit key possibly rotated. -/
def issued (s : Server) (now : Time) (r : Rnd) : Server :=
  (({ s with biscuitCtr := ConstantTime.increment s.biscuitCtr } : Server).activeBiscuitKey now r.bkey).2

theorem issued_eq (s : Server) (now : Time) (r : Rnd) :
    s.issued now r = { s with biscuitCtr := ConstantTime.increment s.biscuitCtr, biscuitKeys := (s.issued now r).biscuitKeys } :=
  activeBiscuitKey_eq _ _ _

theorem rhr_cases (C : Crypto) (s : Server) (ih : InitHello) (p : Nat) (peer : Peer) (c : Core)
    (now : Time) (r : Rnd) :
    (s.rhr C ih p peer c now r = (.error .panic, s)) ∨
    (∃ rh, s.rhr C ih p peer c now r = (.ok (p, rh), s.issued now r)) := by
  unfold rhr
  simp only
  split
  · exact Or.inl rfl
  · split
    · exact Or.inl rfl
    · right
      exact ⟨_, rfl⟩

theorem handleInitHello_cases (C : Crypto) (s : Server) (ih : InitHello) (h : HashChoice)
    (now : Time) (r : Rnd) :
    (∃ e, s.handleInitHello C ih h now r = (.error e, s)) ∨
    (∃ p c peer rh, s.ihrVerify C ih h = .ok (p, c) ∧ s.peers[p]? = some peer ∧
      s.rhr C ih p peer c now r = (.ok (p, rh), s.issued now r) ∧
      s.handleInitHello C ih h now r = (.ok (p, rh), s.issued now r)) := by
  unfold handleInitHello
  cases hv : s.ihrVerify C ih h with
  | error e => exact Or.inl ⟨e, rfl⟩
  | ok x =>
    obtain ⟨p, c⟩ := x
    cases hp : s.peers[p]? with
    | none => exact Or.inl ⟨.panic, by simp only [hp]⟩
    | some peer =>
      simp only [hp]
      rcases rhr_cases C s ih p peer c now r with h1 | ⟨rh, h1⟩
      · exact Or.inl ⟨_, h1⟩
      · exact Or.inr ⟨p, c, peer, rh, rfl, hp, h1, h1⟩

theorem handleRespHello_cases (C : Crypto) (s : Server) (rh : RespHello) (now : Time) :
    (∃ e, s.handleRespHello C rh now = (.error e, s)) ∨
    (∃ p c ic peer, s.rhiVerify C rh = .ok (p, c, ic) ∧ s.peers[p]? = some peer ∧
      (s.handleRespHello C rh now = (.error .sidInUse, s.sessTake p) ∨
       s.handleRespHello C rh now =
        (.ok (p, ic), (s.sessPut p (c.enterLive C now .initiator peer.version.hash)).modHs p
          (fun hs => { hs with core := hs.core.erase, next := .respConf })) ∧
        ((s.sessTake p).index (.sid (c.enterLive C now .initiator peer.version.hash).sidm) = none ∨
         (s.sessTake p).index (.sid (c.enterLive C now .initiator peer.version.hash).sidm) = some p))) := by
  unfold handleRespHello
  cases hv : s.rhiVerify C rh with
  | error e => exact Or.inl ⟨e, rfl⟩
  | ok x =>
    obtain ⟨p, c, ic⟩ := x
    cases hp : s.peers[p]? with
    | none => exact Or.inl ⟨.panic, by simp only [hp]⟩
    | some peer =>
      right
      refine ⟨p, c, ic, peer, rfl, hp, ?_⟩
      simp only [hp]
      rcases sessInsert_cases s p (c.enterLive C now .initiator peer.version.hash) with ⟨h, _⟩ | ⟨h, h2⟩
      · left; rw [h]
      · right; rw [h]; exact ⟨rfl, h2⟩

/-- State after `handle_init_conf` accepted a confirmation. -/
def confirmed (s : Server) (p : Nat) (no : Bytes) (ses : Session) : Server :=
  (((s.modPeer p (fun q => { q with biscuitUsed := no })).sessPut p ses).hsTake p).modPeer p
    (fun q => { q with session := q.session.map (fun x => { x with txnm := x.txnm + 1 }) })

theorem confirmed_get (s : Server) (p : Nat) (no : Bytes) (ses : Session) (i : Nat) :
    (s.confirmed p no ses).peers[i]? = if i = p then s.peers[i]?.map (fun q =>
      { q with biscuitUsed := no, session := some { ses with txnm := ses.txnm + 1 }, handshake := none })
      else s.peers[i]? := by
  unfold confirmed
  rw [modPeer_get, hsTake_get, sessPut_get, modPeer_get]
  by_cases h : i = p
  · simp only [h, if_true, Option.map_map]; rfl
  · simp only [h, if_false]

theorem confirmed_globals (s : Server) (p no ses) : SameGlobals s (s.confirmed p no ses) := by
  unfold confirmed
  exact (SameGlobals.modPeer _ _ _).trans ((sessPut_globals _ _ _).trans ((hsTake_globals _ _).trans (SameGlobals.modPeer _ _ _)))

theorem handleInitConf_cases (C : Crypto) (s : Server) (ic : InitConf) (h : HashChoice) (now : Time) :
    (∃ e, s.handleInitConf C ic h now = (.error e, s) ∧ e ≠ .sidInUse) ∨
    (∃ p no c peer, s.icrVerify C ic h = .ok (p, no, c) ∧ s.peers[p]? = some peer ∧
      (s.handleInitConf C ic h now =
        (.error .sidInUse, (s.modPeer p (fun q => { q with biscuitUsed := no })).sessTake p) ∨
       s.handleInitConf C ic h now =
        (.ok (p, ackOf C (c.enterLive C now .responder peer.version.hash)),
          s.confirmed p no (c.enterLive C now .responder peer.version.hash)) ∧
        (((s.modPeer p (fun q => { q with biscuitUsed := no })).sessTake p).index
            (.sid (c.enterLive C now .responder peer.version.hash).sidm) = none ∨
         ((s.modPeer p (fun q => { q with biscuitUsed := no })).sessTake p).index
            (.sid (c.enterLive C now .responder peer.version.hash).sidm) = some p))) := by
  unfold handleInitConf
  cases hv : s.icrVerify C ic h with
  | error e =>
    refine Or.inl ⟨e, rfl, ?_⟩
    rintro rfl
    unfold icrVerify at hv
    cases hl : s.loadBiscuit C ic.biscuitCt ic.sidi ic.sidr h with
    | error e =>
      simp only [hl, Except.error.injEq] at hv
      subst hv
      unfold loadBiscuit at hl
      simp only at hl
      split at hl
      · cases hl
      · split at hl
        · cases hl
        · split at hl <;> cases hl
    | ok y =>
      simp only [hl] at hv
      split at hv
      · cases hv
      · split at hv
        · cases hv
        · split at hv
          · cases hv
          · split at hv <;> cases hv
  | ok x =>
    obtain ⟨p, no, c⟩ := x
    cases hp : s.peers[p]? with
    | none => exact Or.inl ⟨.panic, by simp only [hp], by decide⟩
    | some peer =>
      right
      refine ⟨p, no, c, peer, rfl, hp, ?_⟩
      simp only [hp]
      rcases sessInsert_cases (s.modPeer p (fun q => { q with biscuitUsed := no })) p
          (c.enterLive C now .responder peer.version.hash) with ⟨h, _⟩ | ⟨h, h2⟩
      · left; rw [h]
      · right; rw [h]
        refine ⟨?_, h2⟩
        simp only
        have : (((s.modPeer p (fun q => { q with biscuitUsed := no })).sessPut p
            (c.enterLive C now .responder peer.version.hash)).hsTake p).session p =
            some (c.enterLive C now .responder peer.version.hash) := by
          unfold session
          rw [hsTake_get, sessPut_get, modPeer_get]
          simp only [if_true, hp]; rfl
        rw [this]
        rfl

theorem handleRespConf_cases (C : Crypto) (s : Server) (e : Env) :
    (∃ x, s.handleRespConf C e = (.error x, s)) ∨
    (∃ p peer ses, s.lookupHandshake (EmptyData.decode e.payload).sid = some p ∧
      s.peers[p]? = some peer ∧ peer.session = some ses ∧
      peer.handshake.map (·.next) = some .respConf ∧
      s.checkSeal C peer.version.hash e = true ∧
      ses.txnt ≤ leNat (EmptyData.decode e.payload).ctr ∧
      let s1 := s.modPeer p (fun q => { q with session := some { ses with txnt := leNat (EmptyData.decode e.payload).ctr } })
      (s.handleRespConf C e = (.error .decrypt, s1) ∧
        C.aeadDec ses.txkt (txNonce (EmptyData.decode e.payload).ctr) [] (EmptyData.decode e.payload).auth = none ∨
       s.handleRespConf C e = (.ok p, s1.hsTake p) ∧
        (C.aeadDec ses.txkt (txNonce (EmptyData.decode e.payload).ctr) [] (EmptyData.decode e.payload).auth).isSome)) := by
  unfold handleRespConf
  simp only
  split
  · exact Or.inl ⟨_, rfl⟩
  · rename_i p hl
    split
    · exact Or.inl ⟨_, rfl⟩
    · rename_i peer hp
      by_cases hc : s.checkSeal C peer.version.hash e = true
      · rw [if_neg (by simp [hc])]
        by_cases hn : (peer.handshake.map (·.next)) = some .respConf
        · rw [if_neg (by simp [hn])]
          cases hses : peer.session with
          | none => exact Or.inl ⟨_, rfl⟩
          | some ses =>
            simp only
            by_cases ht : leNat (EmptyData.decode e.payload).ctr < ses.txnt
            · rw [if_pos ht]; exact Or.inl ⟨_, rfl⟩
            · rw [if_neg ht]
              right
              refine ⟨p, peer, ses, hl, hp, hses, hn, hc, by omega, ?_⟩
              cases hd : C.aeadDec ses.txkt (txNonce (EmptyData.decode e.payload).ctr) [] (EmptyData.decode e.payload).auth with
              | none => left; simp
              | some x => right; simp
        · rw [if_pos hn]; exact Or.inl ⟨_, rfl⟩
      · rw [if_pos (by simpa using hc)]; exact Or.inl ⟨_, rfl⟩

theorem handleCookieReply_cases (C : Crypto) (s : Server) (cr : CookieReply) (now : Time) :
    (∃ x, s.handleCookieReply C cr now = (.error x, s)) ∨
    (∃ p peer hs mac, (s.lookupSession cr.sid = some p ∨ s.lookupHandshake cr.sid = some p) ∧
      s.peers[p]? = some peer ∧ peer.handshake = some hs ∧ lastMac C hs = .ok mac ∧
      (C.xOpen (cookieKey C peer.spkt) mac cr.cookieEncrypted = none ∧
        s.handleCookieReply C cr now = (.error .decrypt, s.modHs p (fun h =>
              { h with cookieValue := { createdAt := now, value := (cr.cookieEncrypted.drop 24).take 16 } })) ∨
       ∃ v, C.xOpen (cookieKey C peer.spkt) mac cr.cookieEncrypted = some v ∧
        s.handleCookieReply C cr now = (.ok p, s.modHs p (fun h =>
              { h with cookieValue := { createdAt := now, value := v }, txRetryAt := now,
                       txCount := h.txCount + 1 })))) := by
  have h1 : ∀ p, s.cookieReplyPeer cr.sid = some p →
      (s.lookupSession cr.sid = some p ∨ s.lookupHandshake cr.sid = some p) := by
    intro p hp
    unfold cookieReplyPeer at hp
    split at hp
    · left; rename_i h; rw [h]; exact hp
    · right; exact hp
  unfold handleCookieReply
  generalize s.cookieReplyPeer cr.sid = ptr at h1 ⊢
  cases ptr with
  | none => exact Or.inl ⟨_, rfl⟩
  | some p =>
    simp only
    cases hp : s.peers[p]? with
    | none => exact Or.inl ⟨_, rfl⟩
    | some peer =>
      simp only
      cases hh : peer.handshake with
      | none => exact Or.inl ⟨_, rfl⟩
      | some hs =>
        simp only
        cases hm : lastMac C hs with
        | error e => exact Or.inl ⟨_, rfl⟩
        | ok mac =>
          simp only
          right
          refine ⟨p, peer, hs, mac, h1 p rfl, hp, hh, hm, ?_⟩
          cases hx : C.xOpen (cookieKey C peer.spkt) mac cr.cookieEncrypted with
          | none => left; exact ⟨rfl, rfl⟩
          | some v => right; exact ⟨v, rfl, rfl⟩

end Verif.Server
