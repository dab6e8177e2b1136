import Verif.Thm.Inversion
import Verif.Thm.ConstantTime
import Verif.Thm.Msgs
/-
Every call of the API is a sequence of primitive updates. Invariants are then proved once per
primitive update (helper file; the property theorems are elsewhere).
-/
namespace Verif.Server
open HashDomain

/-- What an update of a handshake record must preserve. -/
structure KeepHs (C : Crypto) (a b : IniHs) : Prop where
  sidi : b.core.sidi = a.core.sidi
  hc : b.core.hc = a.core.hc
  buf : b.txBuf.length = a.txBuf.length
  len : b.txLen = a.txLen ∨ b.txLen ≤ 2500
  created : b.createdAt = a.createdAt
  next : b.next = .respHello → a.next = .respHello ∧ b.core = a.core ∧ b.epki = a.epki ∧ b.eski = a.eski
  erased : b.next = .respConf → b.core.ck = zero32 ∨ (a.next = .respConf ∧ b.core.ck = a.core.ck)

/-- What an update of a session record must preserve. -/
structure KeepSes (a b : Session) : Prop where
  sidm : b.sidm = a.sidm
  sidt : b.sidt = a.sidt
  hc : b.hc = a.hc
  ck : b.ck = a.ck
  role : b.role = a.role
  created : b.createdAt = a.createdAt
  txkm : b.txkm = a.txkm
  txkt : b.txkt = a.txkt

/-- Primitive updates. With `F`, new handshakes never reuse the id of the one they replace. -/
inductive Prim (C : Crypto) (F : Prop) (s : Server) : Server → Prop
  | addPeer (psk pk v osk) : s.index (.peer (pidt C (freshPeer psk pk v osk))) = none →
      Prim C F s { s with index := s.index.set (.peer (pidt C (freshPeer psk pk v osk))) (some s.peers.length), peers := s.peers ++ [freshPeer psk pk v osk] }
  | hsPut (p peer hs) : s.peers[p]? = some peer → hs.core.hc = peer.version.hash →
      hs.txBuf.length = 2500 → hs.txLen = 0 → (hs.next = .respHello ∧ ∃ now r ih, s.initiation C peer now r = some (ih, hs)) →
      (s.index (.sid hs.core.sidi) = none ∨ s.index (.sid hs.core.sidi) = some p) →
      (F → (s.handshake p).map (·.core.sidi) ≠ some hs.core.sidi) → Prim C F s (s.hsPut p hs)
  | hsUpd (p f) : (∀ h, KeepHs C h (f h)) → Prim C F s (s.modHs p f)
  | hsTake (p) : Prim C F s (s.hsTake p)
  | sessTake (p) : Prim C F s (s.sessTake p)
  | sessPut (p peer ses) : s.peers[p]? = some peer →
      (ses.hc = peer.version.hash ∨ ∃ hs, peer.handshake = some hs ∧ ses.hc = hs.core.hc) →
      ((s.sessTake p).index (.sid ses.sidm) = none ∨ (s.sessTake p).index (.sid ses.sidm) = some p) →
      Prim C F s (s.sessPut p ses)
  | sesUpd (p f) : (∀ x, KeepSes x (f x)) →
      Prim C F s (s.modPeer p (fun q => { q with session := q.session.map f }))
  | used (p no) : no.length = 12 → (∀ peer, s.peers[p]? = some peer → leNat peer.biscuitUsed < leNat no) →
      Prim C F s (s.modPeer p (fun q => { q with biscuitUsed := no }))
  | knownPut (p peer v s') : s.peers[p]? = some peer → s.index (.known v.requestMac) = none →
      s.knownInsert p v = some s' → v.response.WF EmptyData.size → Prim C F s s'
  | knownRem (p s') : s.knownRemove p = some s' → Prim C F s s'
  | ctr : Prim C F s { s with biscuitCtr := ConstantTime.increment s.biscuitCtr }
  | bkeys (i st) : st.value.length = 32 → Prim C F s { s with biscuitKeys := s.biscuitKeys.set i st }
  | csecrets (i st) : st.value.length = 16 → Prim C F s { s with cookieSecrets := s.cookieSecrets.set i st }
  | initReq (p) : Prim C F s (s.modPeer p (fun q => { q with initReq := true }))
  | pollOff (n) : Prim C F s { s with pollOff := n }

/-- Sequences of primitive updates. -/
inductive Prims (C : Crypto) (F : Prop) : Server → Server → Prop
  | refl (s) : Prims C F s s
  | tail {a b c} : Prims C F a b → Prim C F b c → Prims C F a c

namespace Prims
variable {C : Crypto} {F : Prop}
theorem one {a b : Server} (h : Prim C F a b) : Prims C F a b := .tail (.refl a) h
theorem trans {a b c : Server} (h : Prims C F a b) (g : Prims C F b c) : Prims C F a c := by
  induction g with
  | refl => exact h
  | tail _ h2 ih => exact .tail ih h2
/-- Invariants of primitive updates are invariants of sequences. -/
theorem inv {P : Server → Prop} (hP : ∀ a b, Prim C F a b → P a → P b) {a b : Server}
    (h : Prims C F a b) (ha : P a) : P b := by
  induction h with
  | refl => exact ha
  | tail _ h2 ih => exact hP _ _ h2 ih
end Prims

variable {C : Crypto} {F : Prop}

/-- updating one peer with two functions that agree on it -/
theorem modPeer_congr {s : Server} {p : Nat} {peer : Peer} {f g : Peer → Peer}
    (hp : s.peers[p]? = some peer) (h : f peer = g peer) : s.modPeer p f = s.modPeer p g := by
  unfold modPeer
  congr 1
  apply List.ext_getElem?
  intro i
  simp only [List.getElem?_modify]
  by_cases hi : p = i
  · subst hi; simp [hp, h]
  · simp [hi]

theorem cpyMin_length (a b : Bytes) : (cpyMin a b).length = b.length := by
  simp [cpyMin]; omega

theorem decryptAndMix_core {c c1 : Core} {ct pt : Bytes} (h : c.decryptAndMix C ct = some (pt, c1)) :
    c1 = c.mix C ct := by
  unfold Core.decryptAndMix at h
  split at h
  · cases h
  · simp only [Option.some.injEq, Prod.mk.injEq] at h; exact h.2.symm

theorem rhiVerify_core {s : Server} {rh : RespHello} {p c ic} (h : s.rhiVerify C rh = .ok (p, c, ic)) :
    ∃ hs, s.handshake p = some hs ∧ c.hc = hs.core.hc ∧ c.sidi = hs.core.sidi ∧ c.sidr = rh.sidr ∧
      hs.core.sidi = rh.sidi := by
  obtain ⟨hs, eshk, sshk, pt, c1, hl, hhs, hn, he, hss, hd, rfl, -⟩ := rhiVerify_ok h
  have := decryptAndMix_core hd
  subst this
  refine ⟨hs, hhs, rfl, rfl, rfl, ?_⟩
  unfold lookupHandshake at hl
  split at hl
  · cases hl
  · split at hl
    · rename_i h2
      simp only [Option.some.injEq] at hl
      subst hl
      simpa [hhs] using h2
    · cases hl

theorem icrVerify_core {s : Server} {ic : InitConf} {h : HashChoice} {p no c peer}
    (hok : s.icrVerify C ic h = .ok (p, no, c)) (hp : s.peers[p]? = some peer) :
    c.hc = peer.version.hash ∧ c.sidi = ic.sidi ∧ c.sidr = ic.sidr := by
  obtain ⟨c0, peer', pt, o, hl, hd, hp', -, -⟩ := icrVerify_ok hok
  obtain ⟨pt', peer'', -, -, hp'', -, rfl⟩ := loadBiscuit_ok hl
  rw [hp] at hp''; cases hp''
  have := decryptAndMix_core hd
  subst this
  exact ⟨rfl, rfl, rfl⟩

theorem icrVerify_no_len (L : C.Lawful) {s : Server} {ic : InitConf} {h : HashChoice} {p no c}
    (hwf : ic.WF) (hok : s.icrVerify C ic h = .ok (p, no, c)) : no.length = 12 := by
  obtain ⟨c0, peer', pt, o, hl, hd, hp', -, -⟩ := icrVerify_ok hok
  obtain ⟨pt', peer'', hx, -, hp'', rfl, -⟩ := loadBiscuit_ok hl
  have := Crypto.xOpen_len L hx
  have h2 := hwf.2.2.1
  simp only [biscuitCtLen] at h2
  have hl : pt'.length = Biscuit.size := by simp only [Biscuit.size]; omega
  exact (Biscuit.decode_WF hl).2.1

theorem compare_pos {a b : Bytes} {o : Int32} (h : ConstantTime.compare a b = some o) (ho : o > 0) : leNat b < leNat a := by
  by_cases hl : a.length = b.length
  · rw [(ConstantTime.compare_is_integer_comparison a b).1 hl] at h
    by_cases h1 : leNat a < leNat b
    · rw [if_pos h1] at h; cases h; exact absurd ho (by decide)
    · rw [if_neg h1] at h
      by_cases h2 : leNat a = leNat b
      · rw [if_pos h2] at h; cases h; exact absurd ho (by decide)
      · omega
  · rw [(ConstantTime.compare_is_integer_comparison a b).2 hl] at h; cases h

theorem icrVerify_newer {s : Server} {ic : InitConf} {h : HashChoice} {p no c}
    (hv : s.icrVerify C ic h = .ok (p, no, c)) :
    ∀ peer, s.peers[p]? = some peer → leNat peer.biscuitUsed < leNat no := by
  intro peer hp
  obtain ⟨c0, peer', pt, o, -, -, hp', hc, ho⟩ := icrVerify_ok hv
  rw [hp] at hp'; cases hp'
  exact compare_pos hc ho

theorem enterLive_hc (c : Core) (now role h) : (c.enterLive C now role h).hc = c.hc := by
  cases role <;> rfl

theorem castTx_WF {n : Nat} {tx : Bytes} {e : Env} (h : castTx n tx = some e) : e.WF n := by
  unfold castTx at h
  split at h
  · cases h
  · cases h
    apply Env.view_WF
    simp; omega

theorem sealMsg_WF {n : Nat} (L : C.Lawful) {peer : Peer} {t : MsgType} {e : Env} (h : e.WF n) :
    (sealMsg C peer t e).WF n := by
  obtain ⟨h1, h2, h3, h4⟩ := h
  have hm : ∀ x : Env, (macOf C peer.version.hash peer.spkt x).length = 16 := by
    intro x; simp [macOf, HashDomain.mix, Crypto.hash_len L]
  have hc : ∀ v (x : Env), (cookieOf C v x).length = 16 := by
    intro v x; simp [cookieOf, HashDomain.mix, Crypto.hash_len L]
  unfold sealMsg sealCookie
  simp only
  split
  · exact ⟨h1, h2, hm _, h4⟩
  · exact ⟨h1, h2, hm _, hc _ _⟩

theorem handleInitConf_prims (L : C.Lawful) (s : Server) (ic : InitConf) (h : HashChoice)
    (now : Time) (hwf : ic.WF) : Prims C F s (s.handleInitConf C ic h now).2 := by
  rcases handleInitConf_cases C s ic h now with ⟨e, he, -⟩ | ⟨p, no, c, peer, hv, hp, ⟨he⟩ | ⟨he, hfree⟩⟩
  · rw [he]; exact .refl _
  · rw [he]
    exact (Prims.one (.used p no (icrVerify_no_len L hwf hv) (icrVerify_newer hv))).trans (.one (.sessTake p))
  · rw [he]
    simp only [confirmed]
    have hp1 : (s.modPeer p (fun q => { q with biscuitUsed := no })).peers[p]? = some { peer with biscuitUsed := no } := by
      rw [modPeer_get_self, hp]; rfl
    refine (Prims.one (.used p no (icrVerify_no_len L hwf hv) (icrVerify_newer hv))).trans ?_
    refine (Prims.one (.sessPut p _ _ hp1 ?_ hfree)).trans ?_
    · rw [enterLive_hc]; exact Or.inl (icrVerify_core hv hp).1
    · refine (Prims.one (.hsTake p)).trans (.one (.sesUpd p (fun x => { x with txnm := x.txnm + 1 }) ?_))
      intro x; exact ⟨rfl, rfl, rfl, rfl, rfl, rfl, rfl, rfl⟩

/-! ### Index entries that are not session ids -/

theorem unregisterIfVacant_other (s : Server) (id p k) (h : ∀ i, k ≠ .sid i) :
    (s.unregisterIfVacant id p).index k = s.index k := by
  rcases unregisterIfVacant_index s id p k with h1 | ⟨h1, _⟩
  · exact h1
  · exact absurd h1 (h id)

theorem hsTake_other (s : Server) (p k) (h : ∀ i, k ≠ .sid i) : (s.hsTake p).index k = s.index k := by
  unfold hsTake
  split
  · rfl
  · rw [unregisterIfVacant_other _ _ _ _ h]; rfl

theorem sessTake_other (s : Server) (p k) (h : ∀ i, k ≠ .sid i) : (s.sessTake p).index k = s.index k := by
  unfold sessTake
  split
  · rfl
  · rw [unregisterIfVacant_other _ _ _ _ h]; rfl

theorem sessPut_other (s : Server) (p ses k) (h : ∀ i, k ≠ .sid i) : (s.sessPut p ses).index k = s.index k := by
  unfold sessPut
  simp only [modPeer_index]
  rw [Index.set_ne _ _ (h _), sessTake_other _ _ _ h]

theorem hsPut_other (s : Server) (p hs k) (h : ∀ i, k ≠ .sid i) : (s.hsPut p hs).index k = s.index k := by
  unfold hsPut
  simp only [modPeer_index]
  rw [hsTake_other _ _ _ h]
  simp only
  rw [Index.set_ne _ _ (h _)]

theorem confirmed_other (s : Server) (p no ses k) (h : ∀ i, k ≠ .sid i) :
    (s.confirmed p no ses).index k = s.index k := by
  unfold confirmed
  simp only [modPeer_index]
  rw [hsTake_other _ _ _ h, sessPut_other _ _ _ _ h, modPeer_index]

theorem handleInitConf_other (C : Crypto) (s : Server) (ic : InitConf) (h : HashChoice) (now : Time)
    (k : PKey) (hk : ∀ i, k ≠ .sid i) : (s.handleInitConf C ic h now).2.index k = s.index k := by
  rcases handleInitConf_cases C s ic h now with ⟨e, he, -⟩ | ⟨p, no, c, peer, hv, hp, ⟨he⟩ | ⟨he, hfree⟩⟩
  · rw [he]
  · rw [he]; simp only; rw [sessTake_other _ _ _ hk, modPeer_index]
  · rw [he]; exact confirmed_other _ _ _ _ _ hk

theorem handleInitConf_globals (C : Crypto) (s : Server) (ic : InitConf) (h : HashChoice) (now : Time) :
    SameGlobals s (s.handleInitConf C ic h now).2 := by
  rcases handleInitConf_cases C s ic h now with ⟨e, he, -⟩ | ⟨p, no, c, peer, hv, hp, ⟨he⟩ | ⟨he, hfree⟩⟩
  · rw [he]; exact .refl _
  · rw [he]; exact (SameGlobals.modPeer _ _ _).trans (sessTake_globals _ _)
  · rw [he]; exact confirmed_globals _ _ _ _

/-! ### `handle_msg` -/

theorem activeBiscuitKey_prims (s : Server) (now : Time) (fresh : Bytes) (h : fresh.length = 32) :
    Prims C F s (s.activeBiscuitKey now fresh).2 := by
  unfold activeBiscuitKey
  simp only
  by_cases h1 : (s.biscuitKeys.get (if s.biscuitKeys.a.createdAt ≥ s.biscuitKeys.b.createdAt then false else true)).biscuitMortal.lifecycle now = .young
  · rw [if_pos h1]; exact .refl _
  · rw [if_neg h1]
    exact .one (.bkeys _ _ h)

theorem activeCookieSecrets_prims (s : Server) (now : Time) (fresh : Bytes) (h : fresh.length = 16) :
    Prims C F s (s.activeCookieSecrets now fresh).2 := by
  unfold activeCookieSecrets
  simp only
  generalize (_ ++ _ : List Bool) = l
  by_cases h1 : l = []
  · rw [if_pos h1]; exact .one (.csecrets _ _ h)
  · rw [if_neg h1]; exact .refl _

theorem issued_prims (s : Server) (now : Time) (r : Rnd) (h : r.WF C) : Prims C F s (s.issued now r) :=
  (Prims.one .ctr).trans (activeBiscuitKey_prims _ now r.bkey h.bkey)

theorem helloFinish_state (C : Crypto) (e out : Env) (h p rh) (s : Server) :
    (helloFinish C e out h p rh s).2 = s := by
  unfold helloFinish
  split
  · rfl
  · split
    · rfl
    · split <;> rfl

/-- The final state of the InitHello arm: unchanged, or a biscuit was issued. -/
theorem msgInitHello_state (C : Crypto) (s : Server) (e out : Env) (now : Time) (r : HashChoice → Rnd) :
    (s.msgInitHello C e out now r).2 = s ∨
    ∃ h, (s.msgInitHello C e out now r).2 = s.issued now (r h) := by
  unfold msgInitHello
  simp only
  rcases handleInitHello_cases C s (InitHello.decode C e.payload) .shake now (r .shake) with
    ⟨x, hx⟩ | ⟨p, c, peer, rh, hv, hp, -, hx⟩
  · rw [hx]
    simp only
    by_cases hxp : x = .panic
    · rw [if_pos hxp]; left; rfl
    · rw [if_neg hxp]
      rcases handleInitHello_cases C s (InitHello.decode C e.payload) .blake now (r .blake) with
        ⟨y, hy⟩ | ⟨p, c, peer, rh, hv, hp, -, hy⟩
      · rw [hy]; left; rfl
      · rw [hy]; right; exact ⟨.blake, helloFinish_state _ _ _ _ _ _ _⟩
  · rw [hx]; right; exact ⟨.shake, helloFinish_state _ _ _ _ _ _ _⟩

theorem storeMsg_prims (s : Server) (p : Nat) (now : Time) (jit : Nat) (msg : Bytes)
    (h : msg.length ≤ 2500) : Prims C F s (s.storeMsg p now jit msg).2 := by
  unfold storeMsg
  split
  · exact .refl _
  · refine .one (.hsUpd p _ ?_)
    intro x
    exact ⟨rfl, rfl, by simp [regRetransmit, cpyMin_length], Or.inr h, rfl, fun h => ⟨h, rfl, rfl, rfl⟩, fun h => Or.inr ⟨h, rfl⟩⟩

theorem rhiVerify_ic_WF (L : C.Lawful) {s : Server} {rh : RespHello} {p c ic} (hwf : rh.WF C)
    (h : s.rhiVerify C rh = .ok (p, c, ic)) : ic.WF := by
  obtain ⟨hs, eshk, sshk, pt, c1, hl, hhs, hn, he, hss, hd, -, rfl⟩ := rhiVerify_ok h
  exact ⟨hwf.2.1, hwf.1, hwf.2.2.2.2.2, by simp [Core.encryptAndMix, L.aead_len]⟩

theorem handleRespHello_prims (s : Server) (rh : RespHello) (now : Time) :
    Prims C F s (s.handleRespHello C rh now).2 := by
  rcases handleRespHello_cases C s rh now with ⟨e, he⟩ | ⟨p, c, ic, peer, hv, hp, he | ⟨he, hfree⟩⟩
  · rw [he]; exact .refl _
  · rw [he]; exact .one (.sessTake p)
  · rw [he]
    obtain ⟨hs, hhs, hhc, -⟩ := rhiVerify_core hv
    have hhs' : peer.handshake = some hs := by simpa [handshake, hp] using hhs
    refine (Prims.one (.sessPut p peer _ hp (Or.inr ⟨hs, hhs', ?_⟩) hfree)).trans (.one (.hsUpd p _ ?_))
    · rw [enterLive_hc]; exact hhc
    · intro x; exact ⟨rfl, rfl, rfl, Or.inl rfl, rfl, (fun h => nomatch h), fun _ => Or.inl rfl⟩

theorem msgRespHello_prims (L : C.Lawful) (s : Server) (e : Env) (tx : Bytes) (now : Time) (r : Rnd)
    (he : e.WF (RespHello.size C)) : Prims C F s (s.msgRespHello C e tx now r).2 := by
  unfold msgRespHello
  split
  · exact .refl _
  · rename_i out hout
    have hP := handleRespHello_prims (C := C) (F := F) s (RespHello.decode C e.payload) now
    split
    · rename_i x s1 hx; rw [hx] at hP; exact hP
    · rename_i p ic s1 hx
      rw [hx] at hP
      have hic : ic.WF := by
        rcases handleRespHello_cases C s (RespHello.decode C e.payload) now with ⟨e, he⟩ | ⟨p, c, ic, peer, hv, hp, he' | ⟨he', hfree⟩⟩
        · rw [he] at hx; cases hx
        · rw [he'] at hx; cases hx
        · rw [he'] at hx
          simp only [Prod.mk.injEq, Except.ok.injEq] at hx
          rw [← hx.1.2]
          exact rhiVerify_ic_WF L (RespHello.decode_WF he.2.1) hv
      split
      · exact hP
      · rename_i peer hp
        split
        · exact hP
        · have hw : (sealMsg C peer .initConf { out with payload := ic.encode }).WF InitConf.size := by
            apply sealMsg_WF L
            have := castTx_WF hout
            exact ⟨this.1, InitConf.encode_length hic, this.2.2.1, this.2.2.2⟩
          have hlen : (sealMsg C peer .initConf { out with payload := ic.encode }).encode.length ≤ 2500 := by
            rw [Env.encode_length hw]; simp [Env.size, InitConf.size, biscuitCtLen]
          have h2 := storeMsg_prims (C := C) (F := F) s1 p now r.jit _ hlen
          simp only
          split
          · rename_i hs2; rw [hs2] at h2; exact hP.trans h2
          · rename_i hs2; rw [hs2] at h2; exact hP.trans h2

theorem handleInitConf_ack (L : C.Lawful) {s s1 : Server} {ic : InitConf} {h : HashChoice} {now : Time} {p : Nat} {rc : EmptyData}
    (hic : ic.WF) (hok : s.handleInitConf C ic h now = (.ok (p, rc), s1)) : rc.encode.length = EmptyData.size := by
  rcases handleInitConf_cases C s ic h now with ⟨e, he, -⟩ | ⟨q, no, c, peer, hv, hp, he | ⟨he, -⟩⟩
  · rw [he] at hok; cases hok
  · rw [he] at hok; cases hok
  · rw [he] at hok
    have hrc : ackOf C (c.enterLive C now .responder peer.version.hash) = rc := by
      simp only [Prod.mk.injEq, Except.ok.injEq] at hok
      exact hok.1.2
    rw [← hrc]
    apply EmptyData.encode_length
    refine ⟨?_, toLE_length _ _, ?_⟩
    · have := (icrVerify_core hv hp).2.1
      simp only [ackOf, Core.enterLive, this]
      exact hic.1
    · simp [ackOf, L.aead_len]

theorem msgInitConfFresh_prims (L : C.Lawful) (s : Server) (e out : Env) (now : Time)
    (he : e.WF InitConf.size) (hwo : out.WF EmptyData.size) (hfree : s.index (.known (s.knownHash C e)) = none) :
    Prims C F s (s.msgInitConfFresh C e out now).2 := by
  have hic := InitConf.decode_WF he.2.1
  have fin : ∀ (h : HashChoice) (s0 s1 : Server) (p : Nat) (rc : EmptyData),
      s0.handleInitConf C (InitConf.decode e.payload) h now = (.ok (p, rc), s1) →
      Prims C F s s0 → s0.index (.known (s0.knownHash C e)) = none →
      Prims C F s (confFinish C e out now h p rc s1).2 := by
    intro h s0 s1 p rc hh hP hf
    have hP1 : Prims C F s s1 := by
      have := handleInitConf_prims (F := F) L s0 _ h now hic
      rw [hh] at this
      exact hP.trans this
    have hg := handleInitConf_globals C s0 (InitConf.decode e.payload) h now
    have ho := handleInitConf_other C s0 (InitConf.decode e.payload) h now (.known (s0.knownHash C e)) (by simp)
    rw [hh] at hg ho
    have hk : s1.knownHash C e = s0.knownHash C e := by unfold knownHash; rw [hg.knownKey]
    unfold confFinish
    split
    · exact hP1
    · rename_i peer hp
      split
      · exact hP1
      · split
        · exact hP1
        · simp only
          split
          · exact hP1
          · rename_i s2 hk2
            have : Prims C F s s2 := hP1.tail (.knownPut p peer _ s2 hp (by simp only [hk]; rw [ho]; exact hf) hk2
              ⟨hwo.1, handleInitConf_ack L hic hh, hwo.2.2.1, hwo.2.2.2⟩)
            split <;> exact this
  unfold msgInitConfFresh
  simp only
  cases h1 : s.handleInitConf C (InitConf.decode e.payload) .shake now with
  | mk res s1 =>
    cases res with
    | ok x =>
      obtain ⟨p, rc⟩ := x
      exact fin .shake s s1 p rc h1 (.refl _) hfree
    | error x =>
      have hP1 : Prims C F s s1 := by
        have := handleInitConf_prims (F := F) L s _ .shake now hic
        rw [h1] at this; exact this
      have hg := handleInitConf_globals C s (InitConf.decode e.payload) .shake now
      have ho := handleInitConf_other C s (InitConf.decode e.payload) .shake now (.known (s.knownHash C e)) (by simp)
      rw [h1] at hg ho
      have hk : s1.knownHash C e = s.knownHash C e := by unfold knownHash; rw [hg.knownKey]
      have hf1 : s1.index (.known (s1.knownHash C e)) = none := by rw [hk, ho]; exact hfree
      simp only
      by_cases hxp : x = .panic
      · rw [if_pos hxp]; exact hP1
      · rw [if_neg hxp]
        cases h2 : s1.handleInitConf C (InitConf.decode e.payload) .blake now with
        | mk res2 s2 =>
          have hP2 : Prims C F s s2 := by
            have := handleInitConf_prims (F := F) L s1 _ .blake now hic
            rw [h2] at this; exact hP1.trans this
          cases res2 with
          | ok y =>
            obtain ⟨p, rc⟩ := y
            exact fin .blake s1 s2 p rc h2 hP1 hf1
          | error y => exact hP2

theorem handleMsg_prims (L : C.Lawful) (s : Server) (rx tx : Bytes) (now : Time)
    (r : HashChoice → Rnd) (hr : ∀ h, (r h).WF C) : Prims C F s (s.handleMsg C rx tx now r).2 := by
  unfold handleMsg
  split
  · exact .refl _
  · split
    · exact .refl _
    · rename_i t _
      split
      · exact .refl _
      · rename_i out hout
        cases t with
        | initHello =>
          simp only
          split
          · exact .refl _
          · rename_i e he
            rcases msgInitHello_state C s e out now r with h | ⟨h, hh⟩
            · rw [h]; exact .refl _
            · rw [hh]; exact issued_prims s now _ (hr h)
        | respHello =>
          simp only
          split
          · exact .refl _
          · rename_i e he
            obtain ⟨h1, rfl⟩ := Env.decode_eq_some he
            exact msgRespHello_prims L s _ tx now _ (Env.view_WF h1)
        | initConf =>
          simp only
          split
          · exact .refl _
          · rename_i e he
            obtain ⟨h1, h2⟩ := Env.decode_eq_some he
            unfold msgInitConf
            split
            · exact .refl _
            · rename_i out' hout'
              split
              · split
                · exact .refl _
                · split
                  · exact .refl _
                  · split <;> exact .refl _
              · rename_i hk
                exact msgInitConfFresh_prims L s e out' now (h2 ▸ Env.view_WF h1) (castTx_WF hout') hk
        | emptyData =>
          simp only
          split
          · exact .refl _
          · rename_i e he
            have hP : Prims C F s (s.handleRespConf C e).2 := by
              rcases handleRespConf_cases C s e with ⟨x, hx⟩ | ⟨p, peer, ses, hl, hp, hses, hn, hc, ht, h⟩
              · rw [hx]; exact .refl _
              · have hupd : Prims C F s (s.modPeer p (fun q => { q with session := some { ses with txnt := leNat (EmptyData.decode e.payload).ctr } })) := by
                  rw [modPeer_congr (g := fun q => { q with session := q.session.map (fun x => { x with txnt := leNat (EmptyData.decode e.payload).ctr }) }) hp (by simp [hses])]
                  exact .one (.sesUpd p _ (fun x => ⟨rfl, rfl, rfl, rfl, rfl, rfl, rfl, rfl⟩))
                rcases h with ⟨h, -⟩ | ⟨h, -⟩
                · rw [h]; exact hupd
                · rw [h]; exact hupd.tail (.hsTake p)
            split
            · rename_i hx; rw [hx] at hP; exact hP
            · rename_i hx; rw [hx] at hP; exact hP
        | cookieReply =>
          simp only
          split
          · exact .refl _
          · rename_i cr hcr
            have hP : Prims C F s (s.handleCookieReply C cr now).2 := by
              rcases handleCookieReply_cases C s cr now with ⟨x, hx⟩ | ⟨p, peer, hs, mac, hl, hp, hhs, hm, ⟨-, h⟩ | ⟨v, hv, h⟩⟩
              · rw [hx]; exact .refl _
              · rw [h]; exact .one (.hsUpd p _ (fun x => ⟨rfl, rfl, rfl, Or.inl rfl, rfl, fun h => ⟨h, rfl, rfl, rfl⟩, fun h => Or.inr ⟨h, rfl⟩⟩))
              · rw [h]; exact .one (.hsUpd p _ (fun x => ⟨rfl, rfl, rfl, Or.inl rfl, rfl, fun h => ⟨h, rfl, rfl, rfl⟩, fun h => Or.inr ⟨h, rfl⟩⟩))
            split
            · rename_i hx; rw [hx] at hP; exact hP
            · rename_i hx; rw [hx] at hP; exact hP

end Verif.Server
