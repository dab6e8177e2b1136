import Verif.Thm.KeyAgreement
/-
What each arm of `handle_msg` can do (helper file; the property theorems are in the files that
import it).
-/
namespace Verif.Server
open HashDomain
variable {C : Crypto}

/-- The arms of `handle_msg`, by message type. -/
theorem handleMsg_dispatch (C : Crypto) (s : Server) (rx tx : Bytes) (now : Time) (r : HashChoice → Rnd) :
    (∃ x, s.handleMsg C rx tx now r = (.error x, s) ∧
      (x = .panic → tx.length < Env.size (RespHello.size C)) ∧ (x = .panic ∨ x = .emptyMsg ∨ x = .badType ∨ x = .badSize)) ∨
    (∃ (t : MsgType) (bs : Bytes) (out : Env), rx = t.toU8 :: bs ∧ castTx (RespHello.size C) tx = some out ∧
      ((t = .initHello ∧ ∃ e, Env.decode (InitHello.size C) rx = some e ∧
          s.handleMsg C rx tx now r = s.msgInitHello C e out now r) ∨
       (t = .respHello ∧ ∃ e, Env.decode (RespHello.size C) rx = some e ∧
          s.handleMsg C rx tx now r = s.msgRespHello C e tx now (r .shake)) ∨
       (t = .initConf ∧ ∃ e, Env.decode InitConf.size rx = some e ∧
          s.handleMsg C rx tx now r = s.msgInitConf C e tx now) ∨
       (t = .emptyData ∧ ∃ e, Env.decode EmptyData.size rx = some e ∧
          s.handleMsg C rx tx now r = ((s.handleRespConf C e).1.map (fun _ => ⟨none, none⟩), (s.handleRespConf C e).2)) ∨
       (t = .cookieReply ∧ ∃ cr, CookieReply.decode C rx = some cr ∧
          s.handleMsg C rx tx now r =
            ((s.handleCookieReply C cr now).1.map (fun _ => ⟨none, none⟩), (s.handleCookieReply C cr now).2)))) := by
  cases rx with
  | nil => left; exact ⟨.emptyMsg, rfl, (by intro h; cases h), by simp⟩
  | cons b bs =>
    cases hb : MsgType.ofU8 b with
    | none => left; refine ⟨.badType, ?_, (by intro h; cases h), by simp⟩; simp only [handleMsg, hb]
    | some t =>
      have hb' := (MsgType.ofU8_eq_some_iff b t).mp hb
      cases hc : castTx (RespHello.size C) tx with
      | none =>
        left
        refine ⟨.panic, ?_, ?_, by simp⟩
        · simp only [handleMsg, hb, hc]
        · intro _
          unfold castTx at hc
          split at hc
          · assumption
          · cases hc
      | some out =>
        cases t with
        | initHello =>
          cases he : Env.decode (InitHello.size C) (b :: bs) with
          | none => left; refine ⟨.badSize, ?_, (by intro h; cases h), by simp⟩; simp only [handleMsg, hb, hc, he]
          | some e =>
            right; refine ⟨_, bs, out, by rw [hb'], rfl, Or.inl ⟨rfl, e, rfl, ?_⟩⟩
            simp only [handleMsg, hb, hc, he]
        | respHello =>
          cases he : Env.decode (RespHello.size C) (b :: bs) with
          | none => left; refine ⟨.badSize, ?_, (by intro h; cases h), by simp⟩; simp only [handleMsg, hb, hc, he]
          | some e =>
            right; refine ⟨_, bs, out, by rw [hb'], rfl, Or.inr (Or.inl ⟨rfl, e, rfl, ?_⟩)⟩
            simp only [handleMsg, hb, hc, he]
        | initConf =>
          cases he : Env.decode InitConf.size (b :: bs) with
          | none => left; refine ⟨.badSize, ?_, (by intro h; cases h), by simp⟩; simp only [handleMsg, hb, hc, he]
          | some e =>
            right; refine ⟨_, bs, out, by rw [hb'], rfl, Or.inr (Or.inr (Or.inl ⟨rfl, e, rfl, ?_⟩))⟩
            simp only [handleMsg, hb, hc, he]
        | emptyData =>
          cases he : Env.decode EmptyData.size (b :: bs) with
          | none => left; refine ⟨.badSize, ?_, (by intro h; cases h), by simp⟩; simp only [handleMsg, hb, hc, he]
          | some e =>
            right; refine ⟨_, bs, out, by rw [hb'], rfl, Or.inr (Or.inr (Or.inr (Or.inl ⟨rfl, e, rfl, ?_⟩)))⟩
            simp only [handleMsg, hb, hc, he]
            rcases s.handleRespConf C e with ⟨_ | _, _⟩ <;> rfl
        | cookieReply =>
          cases he : CookieReply.decode C (b :: bs) with
          | none => left; refine ⟨.badSize, ?_, (by intro h; cases h), by simp⟩; simp only [handleMsg, hb, hc, he]
          | some e =>
            right; refine ⟨_, bs, out, by rw [hb'], rfl, Or.inr (Or.inr (Or.inr (Or.inr ⟨rfl, e, rfl, ?_⟩)))⟩
            simp only [handleMsg, hb, hc, he]
            rcases s.handleCookieReply C e now with ⟨_ | _, _⟩ <;> rfl

/-! ### InitHello -/

/-- An InitHello was verified under hash `h` and a biscuit issued; then the final checks. -/
structure HelloRun (C : Crypto) (s : Server) (e out : Env) (now : Time) (r : HashChoice → Rnd)
    (h : HashChoice) (p : Nat) (c : Core) (peer : Peer) (rh : RespHello)
    (res : Except Err MsgResult × Server) : Prop where
  verify : s.ihrVerify C (InitHello.decode C e.payload) h = .ok (p, c)
  hpeer : s.peers[p]? = some peer
  answer : s.rhr C (InitHello.decode C e.payload) p peer c now (r h) = (.ok (p, rh), s.issued now (r h))
  result : (res = (.error .hashMismatch, s.issued now (r h)) ∧ peer.version.hash ≠ h) ∨
    (res = (.error .sealBroken, s.issued now (r h)) ∧ s.checkSeal C h e = false) ∨
    (res = (.ok { exchanged := none, resp := some (sealMsg C peer .respHello { out with payload := rh.encode }).encode },
        s.issued now (r h)) ∧ peer.version.hash = h ∧ s.checkSeal C h e = true)

theorem issued_peers (s : Server) (now r) : (s.issued now r).peers = s.peers := by rw [issued_eq]
theorem issued_index (s : Server) (now r) : (s.issued now r).index = s.index := by rw [issued_eq]
theorem issued_spkm (s : Server) (now r) : (s.issued now r).spkm = s.spkm := by rw [issued_eq]
theorem issued_checkSeal (s : Server) (now r h e) : (s.issued now r).checkSeal C h e = s.checkSeal C h e := by
  unfold checkSeal; rw [issued_spkm]

theorem msgInitHello_cases (C : Crypto) (s : Server) (e out : Env) (now : Time) (r : HashChoice → Rnd) :
    (∃ x, s.msgInitHello C e out now r = (.error x, s)) ∨
    (∃ h p c peer rh, HelloRun C s e out now r h p c peer rh (s.msgInitHello C e out now r)) := by
  have fin : ∀ h p c peer rh, s.ihrVerify C (InitHello.decode C e.payload) h = .ok (p, c) →
      s.peers[p]? = some peer →
      s.rhr C (InitHello.decode C e.payload) p peer c now (r h) = (.ok (p, rh), s.issued now (r h)) →
      HelloRun C s e out now r h p c peer rh (helloFinish C e out h p rh (s.issued now (r h))) := by
    intro h p c peer rh hv hp hr
    refine ⟨hv, hp, hr, ?_⟩
    have hp' : (s.issued now (r h)).peers[p]? = some peer := by rw [issued_peers]; exact hp
    unfold helloFinish
    simp only [hp', issued_checkSeal]
    by_cases h1 : peer.version.hash = h
    · cases h2 : s.checkSeal C h e with
      | true => right; right; simp [hashChoiceMatches, h1]
      | false => right; left; simp [hashChoiceMatches, h1]
    · left; simp [hashChoiceMatches, h1]
  unfold msgInitHello
  simp only
  rcases handleInitHello_cases C s (InitHello.decode C e.payload) .shake now (r .shake) with ⟨x, hx⟩ | ⟨p, c, peer, rh, hv, hp, hr, hx⟩
  · rw [hx]
    simp only
    by_cases hxp : x = .panic
    · rw [if_pos hxp]; exact Or.inl ⟨_, rfl⟩
    · rw [if_neg hxp]
      rcases handleInitHello_cases C s (InitHello.decode C e.payload) .blake now (r .blake) with ⟨y, hy⟩ | ⟨p, c, peer, rh, hv, hp, hr, hy⟩
      · rw [hy]; exact Or.inl ⟨_, rfl⟩
      · rw [hy]; exact Or.inr ⟨_, _, _, _, _, fin _ _ _ _ _ hv hp hr⟩
  · rw [hx]; exact Or.inr ⟨_, _, _, _, _, fin _ _ _ _ _ hv hp hr⟩

/-! ### RespHello -/

/-- the initiator's state once a RespHello was verified -/
def accepted (s : Server) (p : Nat) (ses : Session) : Server :=
  (s.sessPut p ses).modHs p (fun hs => { hs with core := hs.core.erase, next := .respConf })

theorem accepted_get (s : Server) (p : Nat) (ses : Session) (i : Nat) :
    (s.accepted p ses).peers[i]? = if i = p then s.peers[i]?.map (fun q =>
      { q with session := some ses, handshake := q.handshake.map (fun hs => { hs with core := hs.core.erase, next := .respConf }) })
      else s.peers[i]? := by
  unfold accepted
  rw [modHs_get, sessPut_get]
  by_cases hi : i = p
  · simp [hi, Function.comp_def]
  · simp [hi]

theorem accepted_globals (s : Server) (p ses) : SameGlobals s (s.accepted p ses) :=
  (sessPut_globals s p ses).trans (SameGlobals.modPeer _ _ _)

/-- A RespHello was verified; what follows. -/
structure RespRun (C : Crypto) (s : Server) (e out : Env) (now : Time) (r : Rnd) (p : Nat) (c : Core)
    (ic : InitConf) (peer : Peer) (hs : IniHs) (res : Except Err MsgResult × Server) : Prop where
  verify : s.rhiVerify C (RespHello.decode C e.payload) = .ok (p, c, ic)
  hpeer : s.peers[p]? = some peer
  hhs : peer.handshake = some hs
  result :
    let ses := c.enterLive C now .initiator peer.version.hash
    let peer' := { peer with session := some ses, handshake := some { hs with core := hs.core.erase, next := .respConf } }
    let m := sealMsg C peer' .initConf { out with payload := ic.encode }
    (res = (.error .sidInUse, s.sessTake p) ∧ ∃ q, q ≠ p ∧ (s.sessTake p).index (.sid ses.sidm) = some q) ∨
    (res = (.error .sealBroken, s.accepted p ses) ∧ s.checkSeal C peer.version.hash e = false) ∨
    (res = (.ok { exchanged := some p, resp := some m.encode },
      (s.accepted p ses).modHs p (fun hs =>
        regRetransmit now r.jit { hs with txBuf := cpyMin m.encode hs.txBuf, txCount := 0, txLen := m.encode.length })) ∧
      s.checkSeal C peer.version.hash e = true)

theorem msgRespHello_cases (C : Crypto) (s : Server) (e : Env) (tx : Bytes) (now : Time) (r : Rnd) :
    (∃ x, s.msgRespHello C e tx now r = (.error x, s)) ∨
    (∃ out p c ic peer hs, castTx InitConf.size tx = some out ∧
      RespRun C s e out now r p c ic peer hs (s.msgRespHello C e tx now r)) := by
  unfold msgRespHello
  cases hc : castTx InitConf.size tx with
  | none => exact Or.inl ⟨_, rfl⟩
  | some out =>
    simp only
    unfold handleRespHello
    cases hv : s.rhiVerify C (RespHello.decode C e.payload) with
    | error x => exact Or.inl ⟨_, rfl⟩
    | ok y =>
      obtain ⟨p, c, ic⟩ := y
      obtain ⟨hs, hhs, -⟩ := rhiVerify_core hv
      have : ∃ peer, s.peers[p]? = some peer ∧ peer.handshake = some hs := by
        unfold handshake at hhs
        cases hp : s.peers[p]? with
        | none => rw [hp] at hhs; cases hhs
        | some peer => rw [hp] at hhs; exact ⟨peer, rfl, hhs⟩
      obtain ⟨peer, hp, hh⟩ := this
      right
      refine ⟨out, p, c, ic, peer, hs, rfl, hv, hp, hh, ?_⟩
      simp only [hp]
      rcases sessInsert_cases s p (c.enterLive C now .initiator peer.version.hash) with ⟨h, q, hq⟩ | ⟨h, -⟩
      · rw [h]; left; exact ⟨rfl, q, hq⟩
      · rw [h]
        simp only
        have hget : ((s.sessPut p (c.enterLive C now .initiator peer.version.hash)).modHs p
            (fun hs => { hs with core := hs.core.erase, next := .respConf })).peers[p]? =
            some { peer with session := some (c.enterLive C now .initiator peer.version.hash), handshake := some { hs with core := hs.core.erase, next := .respConf } } := by
          have := accepted_get s p (c.enterLive C now .initiator peer.version.hash) p
          rw [if_pos rfl, hp] at this
          simp only [Option.map_some, hh] at this
          exact this
        simp only [hget]
        have hck : ((s.sessPut p (c.enterLive C now .initiator peer.version.hash)).modHs p
            (fun hs => { hs with core := hs.core.erase, next := .respConf })).checkSeal C peer.version.hash e =
            s.checkSeal C peer.version.hash e := by
          have hsp := (accepted_globals s p (c.enterLive C now .initiator peer.version.hash)).spkm
          unfold accepted at hsp
          unfold checkSeal
          rw [hsp]
        rw [hck]
        cases h2 : s.checkSeal C peer.version.hash e with
        | false => right; left; simp [accepted]
        | true =>
          right; right
          simp only [Bool.not_true, Bool.false_eq_true, if_false, and_true]
          rw [storeMsg_ok (hs := { hs with core := hs.core.erase, next := .respConf }) (by simp [handshake, hget])]
          rfl

/-! ### InitConf -/

/-- the responder's state when the session id of a verified InitConf cannot be registered -/
def burnt (s : Server) (p : Nat) (no : Bytes) : Server :=
  (s.modPeer p (fun q => { q with biscuitUsed := no })).sessTake p

theorem burnt_get (s : Server) (p : Nat) (no : Bytes) (i : Nat) :
    (s.burnt p no).peers[i]? = if i = p then s.peers[i]?.map (fun q => { q with biscuitUsed := no, session := none })
      else s.peers[i]? := by
  unfold burnt
  rw [sessTake_get, modPeer_get]
  by_cases hi : i = p
  · simp [hi, Function.comp_def]
  · simp [hi]

theorem burnt_globals (s : Server) (p no) : SameGlobals s (s.burnt p no) :=
  (SameGlobals.modPeer _ _ _).trans (sessTake_globals _ _)

theorem burnt_other (s : Server) (p no k) (hk : ∀ i, k ≠ .sid i) : (s.burnt p no).index k = s.index k := by
  unfold burnt; rw [sessTake_other _ _ _ hk, modPeer_index]

/-- An InitConf was verified under hash `h` in state `s0`; what follows. -/
structure ConfRun (C : Crypto) (s0 : Server) (e out : Env) (now : Time) (h : HashChoice) (p : Nat)
    (no : Bytes) (c : Core) (peer : Peer) (res : Except Err MsgResult × Server) : Prop where
  verify : s0.icrVerify C (InitConf.decode e.payload) h = .ok (p, no, c)
  hpeer : s0.peers[p]? = some peer
  result :
    let ses := c.enterLive C now .responder peer.version.hash
    let rsp := { out with payload := (ackOf C ses).encode }
    let k : Known := { receivedAt := now, requestMac := s0.knownHash C e, response := rsp }
    let peer' := { peer with biscuitUsed := no, session := some { ses with txnm := ses.txnm + 1 }, handshake := none, known := some k }
    ((∃ x, x ≠ .panic ∧ res = (.error x, s0.burnt p no)) ∧
      ∃ q, q ≠ p ∧ (s0.burnt p no).index (.sid ses.sidm) = some q) ∨
    (res = (.error .hashMismatch, s0.confirmed p no ses) ∧ peer.version.hash ≠ h) ∨
    (res = (.error .sealBroken, s0.confirmed p no ses) ∧ s0.checkSeal C h e = false) ∨
    (res = (.error .panic, s0.confirmed p no ses) ∧ (s0.confirmed p no ses).knownInsert p k = none) ∨
    (∃ s2, res = (.ok { exchanged := some p, resp := some (sealMsg C peer' .emptyData rsp).encode }, s2) ∧
      (s0.confirmed p no ses).knownInsert p k = some s2 ∧ peer.version.hash = h ∧ s0.checkSeal C h e = true)

theorem handleInitConf_cases' (C : Crypto) (s : Server) (ic : InitConf) (h : HashChoice) (now : Time) :
    (∃ e, s.handleInitConf C ic h now = (.error e, s) ∧ (e = .panic → s.icrVerify C ic h = .error .panic)) ∨
    (∃ p no c peer, s.icrVerify C ic h = .ok (p, no, c) ∧ s.peers[p]? = some peer ∧
      let ses := c.enterLive C now .responder peer.version.hash
      ((s.handleInitConf C ic h now = (.error .sidInUse, s.burnt p no) ∧
         ∃ q, q ≠ p ∧ (s.burnt p no).index (.sid ses.sidm) = some q) ∨
       (s.handleInitConf C ic h now = (.ok (p, ackOf C ses), s.confirmed p no ses)))) := by
  cases hv : s.icrVerify C ic h with
  | error e =>
    left; refine ⟨e, ?_, fun h => by rw [h]⟩
    unfold handleInitConf; rw [hv]
  | ok x =>
    obtain ⟨p, no, c⟩ := x
    obtain ⟨-, peer, -, -, -, -, hp, -, -⟩ := icrVerify_ok hv
    right
    refine ⟨p, no, c, peer, rfl, hp, ?_⟩
    intro ses
    unfold handleInitConf
    simp only [hv, hp]
    rcases sessInsert_cases (s.modPeer p (fun q => { q with biscuitUsed := no })) p ses with ⟨h, q, hq⟩ | ⟨h, -⟩
    · left
      rw [show (s.modPeer p (fun q => { q with biscuitUsed := no })).sessInsert p (c.enterLive C now .responder peer.version.hash) = _ from h]
      exact ⟨rfl, q, hq⟩
    · right
      rw [show (s.modPeer p (fun q => { q with biscuitUsed := no })).sessInsert p (c.enterLive C now .responder peer.version.hash) = _ from h]
      simp only
      have : (((s.modPeer p (fun q => { q with biscuitUsed := no })).sessPut p ses).hsTake p).session p = some ses := by
        unfold session
        rw [hsTake_get, sessPut_get, modPeer_get]
        simp only [if_true, hp]; rfl
      rw [this]
      rfl

/-- The state in which hash `h` is tried: the original one, or, for the second attempt, the one
left behind by a first attempt that failed at the registration of the session id. -/
def AttemptState (C : Crypto) (s : Server) (ic : InitConf) (h : HashChoice) (s0 : Server) : Prop :=
  s0 = s ∨ (h = .blake ∧ ∃ p no c, s.icrVerify C ic .shake = .ok (p, no, c) ∧ s0 = s.burnt p no ∧
    ∃ q, q ≠ p ∧ s0.index (.sid c.sidr) = some q)

theorem confFinish_run {s0 : Server} {e out : Env} {now : Time} {h : HashChoice} {p : Nat} {no : Bytes} {c : Core}
    {peer : Peer} (hv : s0.icrVerify C (InitConf.decode e.payload) h = .ok (p, no, c)) (hp : s0.peers[p]? = some peer) :
    ConfRun C s0 e out now h p no c peer (confFinish C e out now h p
      (ackOf C (c.enterLive C now .responder peer.version.hash)) (s0.confirmed p no (c.enterLive C now .responder peer.version.hash))) := by
  refine ⟨hv, hp, ?_⟩
  intro ses rsp k peer'
  right
  have hget : (s0.confirmed p no ses).peers[p]? = some { peer with biscuitUsed := no, session := some { ses with txnm := ses.txnm + 1 }, handshake := none } := by
    rw [confirmed_get, if_pos rfl, hp]; rfl
  have hg := confirmed_globals s0 p no ses
  have hck : (s0.confirmed p no ses).checkSeal C h e = s0.checkSeal C h e := by unfold checkSeal; rw [hg.spkm]
  have hkh : (s0.confirmed p no ses).knownHash C e = s0.knownHash C e := by unfold knownHash; rw [hg.knownKey]
  unfold confFinish
  rw [show (s0.confirmed p no (c.enterLive C now .responder peer.version.hash)).peers[p]? = _ from hget]
  simp only
  rw [show (s0.confirmed p no (c.enterLive C now .responder peer.version.hash)).checkSeal C h e = _ from hck,
    show (s0.confirmed p no (c.enterLive C now .responder peer.version.hash)).knownHash C e = _ from hkh]
  by_cases h1 : peer.version.hash = h
  · subst h1
    cases h2 : s0.checkSeal C peer.version.hash e with
    | false =>
      right; left
      simp only [hashChoiceMatches, decide_true, Bool.not_true, Bool.not_false, Bool.false_eq_true, if_false, if_true, and_true]
      rfl
    | true =>
      right; right
      simp only [hashChoiceMatches, decide_true, Bool.not_true, Bool.false_eq_true, if_false]
      cases hk : (s0.confirmed p no ses).knownInsert p k with
      | none =>
        left
        exact ⟨rfl, rfl⟩
      | some s2 =>
        right
        have hget2 : s2.peers[p]? = some peer' := by
          rw [knownInsert_upd hk p, if_pos rfl, hget]; rfl
        simp only [hget2]
        refine ⟨s2, ?_, rfl, ?_, ?_⟩
        · rfl
        · trivial
        · trivial
  · left
    simp only [hashChoiceMatches, h1, decide_false, Bool.not_false, if_true, ne_eq, not_false_eq_true, and_true]
    rfl

theorem msgInitConfFresh_cases (C : Crypto) (s : Server) (e out : Env) (now : Time) :
    (∃ h s0 x, AttemptState C s (InitConf.decode e.payload) h s0 ∧ s.msgInitConfFresh C e out now = (.error x, s0) ∧
      (x = .panic → s0.icrVerify C (InitConf.decode e.payload) h = .error .panic)) ∨
    (∃ h s0 p no c peer, AttemptState C s (InitConf.decode e.payload) h s0 ∧
      ConfRun C s0 e out now h p no c peer (s.msgInitConfFresh C e out now)) := by
  unfold msgInitConfFresh
  simp only
  have blake : ∀ s1 x, x ≠ Err.panic → AttemptState C s (InitConf.decode e.payload) .blake s1 →
      let t := (if x = .panic then (Except.error Err.panic, s1)
      else match s1.handleInitConf C (InitConf.decode e.payload) .blake now with
        | (.ok (p, rc), s2) => confFinish C e out now .blake p rc s2
        | (.error y, s2) => (.error (if y = .panic then .panic else .noHash), s2))
      (∃ h s0 x, AttemptState C s (InitConf.decode e.payload) h s0 ∧ t = (.error x, s0) ∧
        (x = .panic → s0.icrVerify C (InitConf.decode e.payload) h = .error .panic)) ∨
      (∃ h s0 p no c peer, AttemptState C s (InitConf.decode e.payload) h s0 ∧ ConfRun C s0 e out now h p no c peer t) := by
    intro s1 x hx hs1
    rw [if_neg hx]
    rcases handleInitConf_cases' C s1 (InitConf.decode e.payload) .blake now with ⟨y, hy, hyp⟩ | ⟨p, no, c, peer, hv, hp, ⟨hy, q⟩ | hy⟩
    · rw [hy]
      left; refine ⟨.blake, s1, _, hs1, rfl, ?_⟩
      intro h
      apply hyp
      by_cases hh : y = .panic
      · exact hh
      · rw [if_neg hh] at h; cases h
    · rw [hy]
      right
      refine ⟨.blake, s1, p, no, c, peer, hs1, hv, hp, ?_⟩
      left
      exact ⟨⟨.noHash, by decide, rfl⟩, q⟩
    · rw [hy]
      right
      exact ⟨.blake, s1, p, no, c, peer, hs1, confFinish_run hv hp⟩
  rcases handleInitConf_cases' C s (InitConf.decode e.payload) .shake now with ⟨y, hy, hyp⟩ | ⟨p, no, c, peer, hv, hp, ⟨hy, q⟩ | hy⟩
  · rw [hy]
    simp only
    by_cases hyp' : y = .panic
    · rw [if_pos hyp']
      left; exact ⟨.shake, s, _, Or.inl rfl, rfl, fun _ => hyp hyp'⟩
    · exact blake s y hyp' (Or.inl rfl)
  · rw [hy]
    simp only
    exact blake (s.burnt p no) .sidInUse (by decide) (Or.inr ⟨rfl, p, no, c, hv, rfl, q⟩)
  · rw [hy]
    simp only
    right
    exact ⟨.shake, s, p, no, c, peer, Or.inl rfl, confFinish_run hv hp⟩

/-- The whole InitConf arm. -/
theorem msgInitConf_cases (C : Crypto) (s : Server) (e : Env) (tx : Bytes) (now : Time) :
    (s.msgInitConf C e tx now = (.error .panic, s) ∧ tx.length < Env.size EmptyData.size) ∨
    (∃ out, castTx EmptyData.size tx = some out ∧
      ((∃ p, s.index (.known (s.knownHash C e)) = some p ∧
        ((∃ x, s.msgInitConf C e tx now = (.error x, s) ∧
            (x = .panic → s.peers[p]? = none ∨ ∃ peer, s.peers[p]? = some peer ∧ peer.known = none)) ∨
         ∃ peer k, s.peers[p]? = some peer ∧ peer.known = some k ∧ s.checkSeal C peer.version.hash e = true ∧
          s.msgInitConf C e tx now =
            (.ok { exchanged := none, resp := some (sealMsg C peer .emptyData k.response).encode }, s))) ∨
       (s.index (.known (s.knownHash C e)) = none ∧ s.msgInitConf C e tx now = s.msgInitConfFresh C e out now))) := by
  unfold msgInitConf
  cases hc : castTx EmptyData.size tx with
  | none =>
    left
    refine ⟨rfl, ?_⟩
    unfold castTx at hc
    split at hc
    · assumption
    · cases hc
  | some out =>
    right
    refine ⟨out, rfl, ?_⟩
    simp only
    cases hi : s.index (.known (s.knownHash C e)) with
    | none => right; exact ⟨rfl, rfl⟩
    | some p =>
      left
      refine ⟨p, rfl, ?_⟩
      simp only
      cases hp : s.peers[p]? with
      | none => left; exact ⟨_, rfl, fun _ => Or.inl rfl⟩
      | some peer =>
        simp only
        cases hck : s.checkSeal C peer.version.hash e with
        | false => left; simp
        | true =>
          simp only [Bool.not_true, Bool.false_eq_true, if_false]
          cases hk : peer.known with
          | none => left; exact ⟨_, rfl, fun _ => Or.inr ⟨peer, rfl, hk⟩⟩
          | some k => right; exact ⟨peer, k, rfl, hk, hck, rfl⟩

end Verif.Server
