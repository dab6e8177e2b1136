import Verif.Thm.Load
/-
C12 (cookie liveness), C27 (biscuit keys), C28 (cookie secrets).
-/
namespace Verif
open HashDomain Server

/-! ### Specification vocabulary -/

/-- The clock value a call uses. -/
def Server.Op.time : Op → Option Time
  | .initiate _ now _ _ => some now
  | .handleMsg _ _ now _ => some now
  | .handleMsgUnderLoad _ _ _ now _ => some now
  | .poll now _ => some now
  | _ => none

/-- A biscuit key that may still encrypt at `now`: it was set, and is younger than 300 s (up to the
clock granularity). -/
def KeyYoung (x : Store) (now : Time) : Prop := 0 ≤ x.createdAt ∧ now + eventGrace ≤ x.createdAt + secs 300

/-- The biscuit key that encrypted the biscuit in the RespHello `m`. -/
def keyOf (C : Crypto) (t : Server) (m : Bytes) : Store :=
  t.biscuitKeys.get (biscuitKeyBit (RespHello.decode C (Env.view (payloadSize C .respHello) m).payload).biscuitCt)

section
variable {C : Crypto}

/-! ### What a call does to the server's secrets -/

theorem handleMsg_globals (C : Crypto) (s : Server) (rx tx : Bytes) (now : Time) (r : HashChoice → Rnd) :
    SameGlobals s (s.handleMsg C rx tx now r).2 ∨ ∃ h, (s.handleMsg C rx tx now r).2 = s.issued now (r h) := by
  rcases handleMsg_dispatch C s rx tx now r with ⟨x, hx, -⟩ | ⟨t, bs, out, hrx, hout, h⟩
  · rw [hx]; exact Or.inl (.refl _)
  · rcases h with ⟨rfl, e, he, hh⟩ | ⟨rfl, e, he, hh⟩ | ⟨rfl, e, he, hh⟩ | ⟨rfl, e, he, hh⟩ | ⟨rfl, cr, he, hh⟩
    · rw [hh]
      rcases msgInitHello_state C s e out now r with h | ⟨h, hs⟩
      · rw [h]; exact Or.inl (.refl _)
      · exact Or.inr ⟨h, hs⟩
    · rw [hh]
      left
      rcases msgRespHello_cases C s e tx now (r .shake) with ⟨x, hx⟩ | ⟨out', q, c, ic, peer, hs, hc, R⟩
      · rw [hx]; exact .refl _
      · rcases R.result with ⟨h1, -⟩ | ⟨h1, -⟩ | ⟨h1, h2⟩ <;> rw [h1]
        · exact sessTake_globals _ _
        · exact accepted_globals _ _ _
        · exact (accepted_globals _ _ _).trans (SameGlobals.modPeer _ _ _)
    · rw [hh]
      left
      rcases msgInitConf_cases C s e tx now with ⟨hx, -⟩ | ⟨out', hc, ⟨q, hq, ⟨x, hx, -⟩ | ⟨peer, k, hp, -, hck, hx⟩⟩ | ⟨hn, hf⟩⟩
      · rw [hx]; exact .refl _
      · rw [hx]; exact .refl _
      · rw [hx]; exact .refl _
      · rw [hf]
        rcases msgInitConfFresh_cases C s e out' now with ⟨h, s0, x, hA, hx, -⟩ | ⟨h, s0, q, no, c, peer, hA, R⟩
        · rw [hx]; exact (AttemptState.facts hA).1
        · refine (AttemptState.facts hA).1.trans ?_
          rcases R.result with ⟨⟨x, -, h1⟩, -⟩ | ⟨h1, -⟩ | ⟨h1, -⟩ | ⟨h1, -⟩ | ⟨s2, h1, hk, h2, h3⟩ <;> rw [h1]
          · exact burnt_globals _ _ _
          · exact confirmed_globals _ _ _ _
          · exact confirmed_globals _ _ _ _
          · exact confirmed_globals _ _ _ _
          · exact (confirmed_globals _ _ _ _).trans (knownInsert_globals hk)
    · rw [hh]
      left
      rcases handleRespConf_cases C s e with ⟨x, hx⟩ | ⟨p, peer, ses, hl, hp, hses, hn, hc, ht, ⟨h, -⟩ | ⟨h, -⟩⟩
      · rw [hx]; exact .refl _
      · rw [h]; exact SameGlobals.modPeer _ _ _
      · rw [h]; exact (SameGlobals.modPeer _ _ _).trans (hsTake_globals _ _)
    · rw [hh]
      left
      rcases handleCookieReply_cases C s cr now with ⟨x, hx⟩ | ⟨p, peer, hs, mac, -, -, -, -, ⟨-, h⟩ | ⟨v, -, h⟩⟩
      · rw [hx]; exact .refl _
      · rw [h]; exact SameGlobals.modPeer _ _ _
      · rw [h]; exact SameGlobals.modPeer _ _ _

theorem not_usable_of_dead {x : Store} {now t : Time} (h : x.cookieMortal.lifeLeft now = some t) (ht : t < eventGrace) :
    ¬ SecretUsable x now := by
  unfold Store.cookieMortal Mortal.lifeLeft Store.created at h
  rintro ⟨h0, h1⟩
  have h0' : ¬ x.createdAt < 0 := Int.not_lt.mpr h0
  simp only [if_neg h0', Option.map_some, Option.some.injEq] at h
  rw [← h] at ht
  exact (epochs_iff _ _ (secs 120) _).mp ht h1

/-- The slots of the cookie secrets only change when the secret in them is no longer usable. -/
theorem step_secret (C : Crypto) (s : Server) (o : Op) (i : Bool) :
    (s.step C o).cookieSecrets.get i = s.cookieSecrets.get i ∨
    ∃ now, o.time = some now ∧ ¬ SecretUsable (s.cookieSecrets.get i) now := by
  have direct : ∀ (s : Server) rx tx now r, (s.handleMsg C rx tx now r).2.cookieSecrets = s.cookieSecrets := by
    intro s rx tx now r
    rcases handleMsg_globals C s rx tx now r with h | ⟨h, hs⟩
    · exact h.cookieSecrets
    · rw [hs, issued_eq]
  cases o with
  | addPeer psk pk v osk =>
    left
    simp only [step, addPeer]
    split <;> rfl
  | initiate p now r tx =>
    left
    simp only [step]
    rcases initiate_cases C s p now r tx with ⟨x, hx⟩ | ⟨peer, ih, hs, e, -, -, -, -, hx⟩
    · rw [hx]
    · rw [hx]
      show (Server.modHs _ _ _).cookieSecrets.get i = _
      exact congrArg (fun t => Two.get t i) ((hsPut_globals s p hs).trans (SameGlobals.modPeer _ _ _)).cookieSecrets
  | handleMsg rx tx now r => left; exact congrArg (fun t => Two.get t i) (direct s rx tx now r)
  | handleMsgUnderLoad rx tx host now r =>
    have hsa := secretsAfter s now (r .shake).csecret
    have fin : ∀ st, SecretsAfter s now (r .shake).csecret st →
        st.get i = s.cookieSecrets.get i ∨ ∃ now', (Op.handleMsgUnderLoad rx tx host now r).time = some now' ∧ ¬ SecretUsable (s.cookieSecrets.get i) now' := by
      rintro st (rfl | ⟨h, -⟩)
      · exact Or.inl rfl
      · exact Or.inr ⟨now, rfl, h i⟩
    simp only [step]
    rcases underLoad_cases C s rx tx host now r with ⟨x, -, hx, -⟩ | ⟨-, hx⟩ | ⟨-, j, ids, s1, hact, hs1, hc⟩
    · rw [hx]; exact Or.inl rfl
    · rw [hx, direct]; exact Or.inl rfl
    rw [hact] at hsa
    rcases hc with ⟨-, hx⟩ | ⟨e, -, ⟨-, hx⟩ | ⟨-, ⟨-, hx⟩ | ⟨-, hx⟩⟩⟩
    · rw [hx]; exact fin _ hsa
    · rw [hx, direct]; exact fin _ hsa
    · rw [hx]; exact fin _ hsa
    · rw [hx]; exact fin _ hsa
  | poll now r =>
    simp only [step]
    split
    · rename_i c s1 h
      obtain ⟨s2, hm, rfl⟩ := poll_moves s _ _ h
      have : s2.cookieSecrets.get i = s.cookieSecrets.get i ∨ ¬ SecretUsable (s.cookieSecrets.get i) now := by
        refine hm.inv (P := fun t => t.cookieSecrets.get i = s.cookieSecrets.get i ∨ ¬ SecretUsable (s.cookieSecrets.get i) now) ?_ (Or.inl rfl)
        rintro a b hab (h | h)
        · have same : SameGlobals a b → b.cookieSecrets.get i = s.cookieSecrets.get i ∨ ¬ SecretUsable (s.cookieSecrets.get i) now :=
            fun g => Or.inl (by rw [g.cookieSecrets]; exact h)
          cases hab with
          | biscuit j t => exact Or.inl h
          | cookie j t h1 h2 =>
            by_cases hj : i = j
            · subst hj
              right
              rw [← h]
              exact not_usable_of_dead h1 h2
            · left
              rw [Two.get_set_ne _ hj]; exact h
          | hsTake p => exact same (hsTake_globals a p)
          | sessTake p => exact same (sessTake_globals a p)
          | initReq p => exact same (SameGlobals.modPeer _ _ _)
          | retry p => exact same (SameGlobals.modPeer _ _ _)
          | known p k _ hk hlt hr =>
            unfold knownRemove at hr
            rw [hk] at hr
            simp only at hr
            split at hr
            · cases hr
            · cases hr; exact Or.inl h
        · exact Or.inr h
      rcases this with h | h
      · exact Or.inl h
      · exact Or.inr ⟨now, rfl, h⟩
    · exact Or.inl rfl
  | retransmit p tx => exact Or.inl (by simp only [step, retransmit_state])

theorem SecretUsable.mono {x : Store} {a b : Time} (h : SecretUsable x b) (hab : a ≤ b) : SecretUsable x a :=
  ⟨h.1, Int.le_trans (Int.add_le_add_right hab _) h.2⟩

/-- A cookie secret that is usable at `t` was not replaced by any call made up to `t`. -/
theorem run_secret (C : Crypto) (ops : List Op) (s : Server) (i : Bool) (t : Time)
    (hu : SecretUsable (s.cookieSecrets.get i) t) (ht : ∀ o ∈ ops, ∀ u, o.time = some u → u ≤ t) :
    (s.run C ops).cookieSecrets.get i = s.cookieSecrets.get i := by
  induction ops generalizing s with
  | nil => rfl
  | cons o ops ih =>
    have h1 : (s.step C o).cookieSecrets.get i = s.cookieSecrets.get i := by
      rcases step_secret C s o i with h | ⟨now, hn, h⟩
      · exact h
      · exact absurd (hu.mono (ht o (by simp) now hn)) h
    show ((s.step C o).run C ops).cookieSecrets.get i = _
    rw [ih (s.step C o) (by rw [h1]; exact hu) (fun x hx => ht x (by simp [hx])), h1]

/-! ### C28 -/

theorem active_usable {s s1 : Server} {now : Time} {fresh : Bytes} {ids : List Bool} (h0 : 0 ≤ now)
    (hact : s.activeCookieSecrets now fresh = (ids, s1)) : ∀ i ∈ ids, SecretUsable (s1.cookieSecrets.get i) now := by
  rcases activeCookieSecrets_spec s now fresh with ⟨-, h2, h3⟩ | ⟨-, i, h2⟩
  · rw [hact] at h2 h3
    simp only at h2 h3
    subst h2
    exact fun i hi => (h3 i).mp hi
  · rw [hact] at h2
    cases h2
    intro j hj
    rw [List.mem_singleton] at hj
    subst hj
    rw [Two.get_set]
    refine ⟨h0, ?_⟩
    show now + eventGrace ≤ now + 2 * secs 120
    exact Int.add_le_add_left (by decide) _

/-- **C28**, the part that holds: every CookieReply contains the cookie value of the sender's address
under a secret younger than 240 s (two epochs); and (C11) cookies are only accepted under such secrets.
The first half of the English claim, that a secret older than *one* epoch is not used to issue
cookies any more, is false: `old_secret_issues_cookies`. -/
theorem cookie_secret_rotation_partial (L : C.Lawful) (s : Server) (rx tx host : Bytes) (now : Time) (r : HashChoice → Rnd)
    (hr : ∀ h, (r h).WF C) (h0 : 0 ≤ now) (m : Bytes) (s' : Server)
    (hok : s.handleMsgUnderLoad C rx tx host now r = (.ok ⟨none, some m⟩, s')) (hm : m.head? = some 0x86) :
    ∃ i cr e, CookieReply.decode C m = some cr ∧ Env.decode (payloadSize C .initHello) rx = some e ∧
      cr.sid = (InitHello.decode C e.payload).sidi ∧
      C.xOpen (cookieKey C s.spkm) e.mac cr.cookieEncrypted = some (cookieValueFor C (s'.cookieSecrets.get i).value host) ∧
      SecretUsable (s'.cookieSecrets.get i) now := by
  have direct : ∀ (s1 : Server), (s1.handleMsg C rx tx now r).1 = .ok ⟨none, some m⟩ → False := by
    intro s1 h
    rcases handleMsg_dispatch C s1 rx tx now r with ⟨y, hx, -⟩ | ⟨t, bs, out, hrx, hout, hh⟩
    · rw [hx] at h; cases h
    have hd : ∀ t : MsgType, t ≠ .cookieReply → m.head? ≠ some t.toU8 := by
      intro t ht h2; rw [hm] at h2; revert h2; cases t <;> first | exact absurd rfl ht | decide
    rcases hh with ⟨rfl, e, he, hh⟩ | ⟨rfl, e, he, hh⟩ | ⟨rfl, e, he, hh⟩ | ⟨rfl, e, he, hh⟩ | ⟨rfl, cr, he, hh⟩
    · rw [hh] at h
      rcases msgInitHello_cases C s1 e out now r with ⟨y, hx⟩ | ⟨h', q, c, peer, rh, R⟩
      · rw [hx] at h; cases h
      rcases R.result with ⟨h1, -⟩ | ⟨h1, -⟩ | ⟨h1, -⟩ <;> rw [h1] at h <;> cases h
      exact hd .respHello (by decide) (sealMsg_head _ _ _)
    · rw [hh] at h
      rcases msgRespHello_cases C s1 e tx now (r .shake) with ⟨y, hx⟩ | ⟨out', q, c, ic, peer, hs, hc, R⟩
      · rw [hx] at h; cases h
      rcases R.result with ⟨h1, -⟩ | ⟨h1, -⟩ | ⟨h1, -⟩ <;> rw [h1] at h <;> cases h
    · rw [hh] at h
      rcases msgInitConf_cases C s1 e tx now with ⟨hx, -⟩ | ⟨out', hc, ⟨q, hq, ⟨x, hx, -⟩ | ⟨peer, k, hp, -, hck, hx⟩⟩ | ⟨hn, hf⟩⟩
      · rw [hx] at h; cases h
      · rw [hx] at h; cases h
      · rw [hx] at h; cases h
        exact hd .emptyData (by decide) (sealMsg_head _ _ _)
      · rw [hf] at h
        rcases msgInitConfFresh_cases C s1 e out' now with ⟨h', s0, x, hA, hx, -⟩ | ⟨h', s0, q, no, c, peer, hA, R⟩
        · rw [hx] at h; cases h
        · rcases R.result with ⟨⟨x, -, h1⟩, -⟩ | ⟨h1, -⟩ | ⟨h1, -⟩ | ⟨h1, -⟩ | ⟨s2, h1, hk, h2, h3⟩ <;> rw [h1] at h <;> cases h
    · rw [hh] at h
      rcases hrc : s1.handleRespConf C e with ⟨_ | _, _⟩ <;> rw [hrc] at h <;> cases h
    · rw [hh] at h
      rcases hrc : s1.handleCookieReply C cr now with ⟨_ | _, _⟩ <;> rw [hrc] at h <;> cases h
  rcases underLoad_cases C s rx tx host now r with ⟨x, -, hx, -⟩ | ⟨-, hx⟩ | ⟨h81, i, ids, s1, hact, hs1, ⟨-, hx⟩ |
      ⟨e, he, ⟨-, hx⟩ | ⟨-, ⟨-, hx⟩ | ⟨hl, hx⟩⟩⟩⟩
  · rw [hx] at hok; cases hok
  · rw [hx] at hok; exact (direct s (by rw [hok])).elim
  · rw [hx] at hok; cases hok
  · rw [hx] at hok; exact (direct s1 (by rw [hok])).elim
  · rw [hx] at hok; cases hok
  · rw [hx] at hok
    cases hok
    have hwf := cookieReply_encode_length L s' _ (cookieValueFor_length L (s'.cookieSecrets.get i).value host) he hl (hr .shake)
    refine ⟨i, _, e, CookieReply.decode_encode hwf, he, rfl, ?_, active_usable h0 hact i (by simp)⟩
    have hsp : s'.spkm = s.spkm := by rw [hs1]
    simp only [cookieReplyTo, hsp]
    exact Crypto.xOpen_xSeal L _ _ _ _ (hr .shake).nonce

/-! ### C12 -/

/-- Peer `p` of `A`, registered with the key `pk`, waits for an answer to its InitHello `m`, which it
will retransmit. -/
def Pending (C : Crypto) (A : Server) (p : Nat) (pk m : Bytes) : Prop :=
  ∃ peer hs e, A.peers[p]? = some peer ∧ peer.spkt = pk ∧ peer.handshake = some hs ∧
    Env.decode (payloadSize C .initHello) m = some e ∧ m.head? = some 0x81 ∧
    hs.txLen = m.length ∧ hs.txBuf.length = 2500 ∧ hs.txBuf.take m.length = m ∧
    (InitHello.decode C e.payload).sidi = hs.core.sidi ∧ A.index (.sid hs.core.sidi) = some p

theorem initiate_pending (L : C.Lawful) (K : C.KemTotal) {A A1 : Server} {p : Nat} {peer : Peer} {now : Time} {r : Rnd}
    {tx m : Bytes} (hr : r.WF C) (hp : A.peers[p]? = some peer) (hfree : A.index (.sid r.sid) = none)
    (hnew : (A.handshake p).map (·.core.sidi) ≠ some r.sid) (hok : A.initiate C p now r tx = (.ok m, A1)) :
    Pending C A1 p peer.spkt m := by
  have htx : Env.size (InitHello.size C) ≤ tx.length := by
    unfold initiate castTx at hok
    by_cases h : tx.length < Env.size (InitHello.size C)
    · rw [if_pos h] at hok; cases hok
    · omega
  obtain ⟨ih, hs0, hs, e, A1', hini, hx, S, hp1, hcore, -, -, -, hidx, -, -⟩ := initiate_ok L K hr hp hfree hnew htx
  rw [hok] at hx
  obtain ⟨hm, rfl⟩ := Prod.mk.inj hx
  cases hm
  obtain ⟨h1, h2, h3, h4, h5, h6, h7, h8⟩ := initiation_facts hini
  have hlen := Env.encode_length S.wf
  obtain ⟨bs, hbs⟩ := S.cons
  rcases initiate_cases C A p now r tx with ⟨x, hx⟩ | ⟨peer', ih', hs', e0, hp', hini', hc0, -, hx⟩
  · rw [hok] at hx; cases hx
  rw [hp] at hp'; cases hp'
  rw [hini] at hini'; cases hini'
  rw [hok] at hx
  obtain ⟨hm, hA1⟩ := Prod.mk.inj hx
  rw [Except.ok.injEq] at hm
  rw [← hm] at hA1
  have hhs : hs = regRetransmit now r.jit { hs0 with txBuf := cpyMin e.encode hs0.txBuf, txCount := 0, txLen := e.encode.length } := by
    have h9 : A1.handshake p = some hs := by unfold handshake; rw [hp1]; rfl
    rw [hA1] at h9
    unfold handshake modHs modPeer at h9
    simp only [List.getElem?_modify, hsPut_get, hp] at h9
    simpa using h9.symm
  have hb : hs0.txBuf.length = 2500 := h3
  have hfit := L.fits
  have hle : e.encode.length ≤ 2500 := by
    rw [hlen]; simp only [Env.size, InitHello.size]; omega
  refine ⟨_, hs, e, hp1, rfl, rfl, S.decode, by rw [hbs]; rfl, ?_, ?_, ?_, ?_, ?_⟩
  · rw [hhs]; rfl
  · rw [hhs]; simp only [regRetransmit, cpyMin_length]; exact hb
  · rw [hhs]
    simp only [regRetransmit, cpyMin, hb]
    rw [List.take_of_length_le hle, List.take_left' rfl]
  · rw [S.payload, InitHello.decode_encode (initiation_WF L hr hini), hcore, h2]
    exact h6
  · rw [hcore, h2]; exact hidx

theorem handleMsg_cookie (B : Server) {m1 m2 : Bytes} {e : Env} {ck : Bytes} (tx : Bytes) (t : Time) (r : HashChoice → Rnd)
    (h1 : Env.decode (InitHello.size C) m1 = some e) (h2 : Env.decode (InitHello.size C) m2 = some { e with cookie := ck })
    (hh1 : m1.head? = some 0x81) (hh2 : m2.head? = some 0x81) :
    B.handleMsg C m2 tx t r = B.handleMsg C m1 tx t r := by
  have ht : MsgType.ofU8 0x81 = some .initHello := rfl
  cases m1 with
  | nil => cases hh1
  | cons a as =>
    cases m2 with
    | nil => cases hh2
    | cons b bs =>
      have ha : a = 0x81 := by simpa using hh1
      have hb : b = 0x81 := by simpa using hh2
      subst ha hb
      simp only [handleMsg, ht, h1, h2]
      cases castTx (RespHello.size C) tx with
      | none => rfl
      | some out => rfl

/-- **C12.** Cookie liveness. Let `A` wait for an answer to its InitHello `m1` to the holder of `B`'s
public key, and let `B`, under load, answer `m1` (from address `host`) with a CookieReply `m2` at time
`tB`. Then `A` accepts `m2`, and its next retransmission `m3` is `m1` with another cookie, and this is
accepted: whatever calls `B` serves in between, as long as the cookie secret `m2` was made with is
usable (it is at `tB`), `B` still under load processes `m3` from `host` exactly as it processes `m1` when it is
not under load. -/
theorem cookie_liveness (L : C.Lawful) {A B B1 : Server} {p : Nat} {m1 m2 host txB : Bytes} {tB : Time} {rB : HashChoice → Rnd}
    (hpend : Pending C A p B.spkm m1) (hrB : ∀ h, (rB h).WF C) (h0 : 0 ≤ tB)
    (hB : B.handleMsgUnderLoad C m1 txB host tB rB = (.ok ⟨none, some m2⟩, B1)) (hm2 : m2.head? = some 0x86)
    (txA txR : Bytes) (hA : FitsAll C txA) (hR : FitsAll C txR) (tA : Time) (rA : HashChoice → Rnd) :
    ∃ A1 m3 i, A.handleMsg C m2 txA tA rA = (.ok ⟨none, none⟩, A1) ∧ A1.retransmit C p txR = (.ok m3, A1) ∧
      m3.take (m3.length - 16) = m1.take (m1.length - 16) ∧ m3.length = m1.length ∧
      SecretUsable (B1.cookieSecrets.get i) tB ∧
      ∀ (ops : List Op) (t : Time), (∀ o ∈ ops, ∀ u, o.time = some u → u ≤ t) → SecretUsable (B1.cookieSecrets.get i) t →
        ∀ tx r, (B1.run C ops).handleMsgUnderLoad C m3 tx host t r = (B1.run C ops).handleMsg C m1 tx t r := by
  obtain ⟨peer, hs, e, hp, hpk, hhs, he, h81, htl, htb, htake, hsid, hidx⟩ := hpend
  obtain ⟨i, cr, e', hcr, he', hcs, hopen, hus⟩ := cookie_secret_rotation_partial L B m1 txB host tB rB hrB h0 m2 B1 hB hm2
  rw [he] at he'; cases he'
  have hn : payloadSize C .initHello = InitHello.size C := rfl
  rw [hn] at he
  obtain ⟨hlen, hview⟩ := Env.decode_eq_some he
  have hwf : e.WF (InitHello.size C) := hview ▸ Env.view_WF hlen
  have hfitR : Env.size (InitHello.size C) ≤ txR.length := by
    have := hR .initHello
    rw [hn] at this
    simp only [Env.size]; omega
  -- A processes the reply
  have hlast : lastMac C hs = .ok e.mac := by
    have h1 : hs.txBuf.headD 0 = 0x81 := by
      have h2 : hs.txBuf.head? = some 0x81 := by
        rw [← h81]
        rw [← htake, List.head?_take]
        rw [if_neg]
        rw [hlen]; simp only [Env.size]; omega
      cases hb : hs.txBuf with
      | nil => rw [hb] at h2; cases h2
      | cons x xs => rw [hb] at h2; simpa using h2
    have h2 : castTx (InitHello.size C) hs.txBuf = some e := by
      unfold castTx
      have hfit := L.fits
      rw [if_neg (by simp only [Env.size, InitHello.size]; omega), ← hlen, htake, hview]
    have ht : MsgType.ofU8 0x81 = some .initHello := rfl
    simp only [lastMac, h1, ht, h2]
  have hpeer : A.cookieReplyPeer cr.sid = some p := by
    unfold cookieReplyPeer lookupSession lookupHandshake
    rw [hcs, hsid, hidx]
    have hh : (A.handshake p).map (·.core.sidi) = some hs.core.sidi := by
      unfold handshake; rw [hp]; simp [hhs]
    simp only [hh, if_true]
    split <;> rename_i hsome
    · split at hsome
      · exact hsome.symm
      · cases hsome
    · rfl
  have hcrA : A.handleCookieReply C cr tA = (.ok p, A.modHs p (fun h => { h with cookieValue := { createdAt := tA, value := cookieValueFor C (B1.cookieSecrets.get i).value host }, txRetryAt := tA, txCount := h.txCount + 1 })) := by
    unfold handleCookieReply
    simp only [hpeer, hp, hhs, hlast, hpk, hopen]
  obtain ⟨out, hout⟩ : ∃ o, castTx (RespHello.size C) txA = some o := castTx_isSome (by
    have := hA .respHello
    simp only [payloadSize] at this
    simp only [RespHello.size, biscuitCtLen]; omega)
  have hAmsg : A.handleMsg C m2 txA tA rA = (.ok ⟨none, none⟩, A.modHs p (fun h => { h with cookieValue := { createdAt := tA, value := cookieValueFor C (B1.cookieSecrets.get i).value host }, txRetryAt := tA, txCount := h.txCount + 1 })) := by
    have ht : MsgType.ofU8 0x86 = some .cookieReply := rfl
    cases m2 with
    | nil => cases hm2
    | cons b bs =>
      have hb : b = 0x86 := by simpa using hm2
      subst hb
      simp only [handleMsg, ht, hout, hcr, hcrA]
  generalize hv : cookieValueFor C (B1.cookieSecrets.get i).value host = v at *
  have hwf3 : ({ e with cookie := cookieOf C v e } : Env).WF (InitHello.size C) := ⟨hwf.1, hwf.2.1, hwf.2.2.1, cookieOf_length L _ _⟩
  have hlen3 := Env.encode_length hwf3
  have hm1 : m1 = e.encode := by rw [hview]; exact (Env.encode_view hlen).symm
  refine ⟨_, ({ e with cookie := cookieOf C v e } : Env).encode, i, hAmsg, ?_, ?_, ?_, hus, ?_⟩
  · generalize hA1 : A.modHs p _ = A1
    have hget : ∃ hs1, A1.peers[p]? = some { peer with handshake := some hs1 } ∧ hs1.txBuf = hs.txBuf ∧ hs1.txLen = hs.txLen ∧ hs1.cookieValue.value = v := by
      rw [← hA1]
      refine ⟨{ hs with cookieValue := { createdAt := tA, value := v }, txRetryAt := tA, txCount := hs.txCount + 1 }, ?_, rfl, rfl, rfl⟩
      unfold modHs modPeer
      simp only [List.getElem?_modify, hp, if_true]
      show some _ = some _
      rw [Option.some.injEq]
      simp only [hhs, Option.map_some]
    obtain ⟨hs1, hg1, hg2, hg3, hg4⟩ := hget
    unfold retransmit
    simp only [hg1, hg2, hg3]
    rw [if_neg (by rw [htb, htl, hlen]; have := L.fits; simp only [Env.size, InitHello.size]; omega)]
    have hcp : cpyMin (hs.txBuf.take hs.txLen) txR = m1 ++ txR.drop m1.length := by
      rw [htl, htake]
      unfold cpyMin
      rw [List.take_of_length_le (by rw [hlen]; exact hfitR)]
    rw [hcp]
    have hcast : castTx (InitHello.size C) (m1 ++ txR.drop m1.length) = some e := by
      unfold castTx
      rw [if_neg (by rw [List.length_append, hlen]; omega), List.take_left' hlen, hview]
    rw [hcast]
    simp only [sealCookie, hg4]
    rw [htl, hlen, List.take_left' hlen3]
  · rw [hlen3, hlen, hm1]
    have hl : e.toCookie.length = Env.size (InitHello.size C) - 16 := by
      simp only [Env.toCookie, Env.toMac, List.length_append, List.length_cons, hwf.1, hwf.2.1, hwf.2.2.1, Env.size]
      omega
    show (e.toCookie ++ cookieOf C v e).take _ = (e.toCookie ++ e.cookie).take _
    rw [List.take_left' hl, List.take_left' hl]
  · rw [hlen3, hlen]
  · intro ops t hops hut tx r
    have hsec := run_secret C ops B1 i t hut hops
    have hdec : Env.decode (InitHello.size C) ({ e with cookie := cookieOf C v e } : Env).encode = some { e with cookie := cookieOf C v e } :=
      by unfold Env.decode; rw [if_pos hlen3, Env.view_encode hwf3]
    have hh3 : ({ e with cookie := cookieOf C v e } : Env).encode.head? = some 0x81 := by
      rw [← h81, hm1]; rfl
    have hhas : HasCookie C (B1.run C ops) t (r .shake).csecret host ({ e with cookie := cookieOf C v e } : Env).encode := by
      refine Or.inl ⟨i, by rw [hsec]; exact hut, _, hdec, ?_⟩
      rw [hsec, hv]; rfl
    obtain ⟨st, hst, hres⟩ := (under_load_gate L (B1.run C ops) _ tx host t r).2.2.2 hh3 hhas
    rw [hres, ← handleMsg_cookie (B1.run C ops) tx t r he hdec h81 hh3]
    rcases hst with rfl | ⟨hno, -⟩
    · rfl
    · exact absurd (by rw [hsec]; exact hut) (hno i)

end

namespace Ex
/-- the responder under load answers an InitHello at time 0 … -/
def u1 (v : Version) := (B0 v).handleMsgUnderLoad Toy.crypto (m1 v) buf [10, 0, 0, 1] 0 (fun _ => rnd 25)
/-- … and again at 200 s -/
def u2 (v : Version) := (u1 v).2.handleMsgUnderLoad Toy.crypto (m1 v) buf [10, 0, 0, 1] (secs 200) (fun _ => rnd 35)

theorem u1_reach (v) : Reachable Toy.crypto (u1 v).2 :=
  .step _ (.handleMsgUnderLoad (m1 v) buf [10, 0, 0, 1] 0 (fun _ => rnd 25)) (B0_reach v) (fun _ => rnd_WF 25)
theorem u2_result (v) : (Op.handleMsgUnderLoad (m1 v) buf [10, 0, 0, 1] (secs 200) (fun _ => rnd 35)).result Toy.crypto (u1 v).2 = (u2 v).1 := rfl
theorem u2_state (v) : (u1 v).2.step Toy.crypto (.handleMsgUnderLoad (m1 v) buf [10, 0, 0, 1] (secs 200) (fun _ => rnd 35)) = (u2 v).2 := rfl
theorem c1_eq (v) (h : (c1 v).1 = .ok (m1 v)) : (A0 v).initiate Toy.crypto 0 0 (rnd 9) buf = (.ok (m1 v), A1 v) := by
  show c1 v = (.ok (m1 v), (c1 v).2)
  rw [← h]
end Ex

/-- C10–C12: the hypotheses are met: `A` has a pending InitHello, and `B` under load answers it with a
CookieReply. -/
example : Pending Toy.crypto (Ex.A1 .v03) 0 (Ex.B0 .v03).spkm (Ex.m1 .v03) ∧
    (∃ m, (Ex.u1 .v03).1 = .ok ⟨none, some m⟩ ∧ m.head? = some 0x86 ∧ m.length = (Ex.m1 .v03).length) ∧
    FitsAll Toy.crypto Ex.buf := by
  refine ⟨?_, ⟨Ex.reply (Ex.u1 .v03), ?_⟩, ?_⟩
  · have h : (Ex.A0 .v03).initiate Toy.crypto 0 0 (Ex.rnd 9) Ex.buf = (.ok (Ex.m1 .v03), Ex.A1 .v03) := Ex.c1_eq .v03 (by decide +kernel)
    obtain ⟨peer, hp⟩ : ∃ peer, (Ex.A0 .v03).peers[0]? = some peer := ⟨_, List.getElem?_eq_getElem (by decide)⟩
    have := initiate_pending Toy.lawful Toy.kemTotal (Ex.rnd_WF 9) hp (by decide +kernel) (by decide +kernel) h
    have hpk : peer.spkt = (Ex.B0 .v03).spkm := by
      have h2 : (Ex.A0 .v03).peers[0]?.map (·.spkt) = some (Ex.B0 .v03).spkm := by decide +kernel
      rw [hp] at h2
      simpa using h2
    rw [← hpk]
    exact this
  · decide +kernel
  · intro t; cases t <;> decide +kernel

/-- **C28 is false as stated**: 200 s after it drew a cookie secret, the server still uses it to issue
cookies (an epoch is 120 s), and does not draw a new one. -/
theorem old_secret_issues_cookies :
    ∃ (s : Server) (o : Op) (rx host m : Bytes) (now : Time) (i : Bool) (cr : CookieReply) (e : Env), Reachable Toy.crypto s ∧
      o.time = some now ∧ o.received = some rx ∧ o.result Toy.crypto s = .ok ⟨none, some m⟩ ∧ CookieReply.decode Toy.crypto m = some cr ∧
      Env.decode (payloadSize Toy.crypto .initHello) rx = some e ∧
      Toy.crypto.xOpen (cookieKey Toy.crypto s.spkm) e.mac cr.cookieEncrypted =
        some (cookieValueFor Toy.crypto (s.cookieSecrets.get i).value host) ∧
      (s.cookieSecrets.get i).createdAt + cookieSecretEpoch < now ∧
      (s.step Toy.crypto o).cookieSecrets = s.cookieSecrets := by
  obtain ⟨e, he⟩ : ∃ e, Env.decode (payloadSize Toy.crypto .initHello) (Ex.m1 .v03) = some e := Option.isSome_iff_exists.mp (by decide +kernel)
  obtain ⟨cr, hcr⟩ : ∃ cr, CookieReply.decode Toy.crypto (Ex.reply (Ex.u2 .v03)) = some cr := Option.isSome_iff_exists.mp (by decide +kernel)
  have key : Toy.crypto.xOpen (cookieKey Toy.crypto (Ex.u1 .v03).2.spkm) ((Env.decode (payloadSize Toy.crypto .initHello) (Ex.m1 .v03)).getD default).mac
      ((CookieReply.decode Toy.crypto (Ex.reply (Ex.u2 .v03))).getD default).cookieEncrypted =
        some (cookieValueFor Toy.crypto ((Ex.u1 .v03).2.cookieSecrets.get true).value [10, 0, 0, 1]) ∧
      (Ex.u2 .v03).1 = .ok ⟨none, some (Ex.reply (Ex.u2 .v03))⟩ ∧
      ((Ex.u1 .v03).2.cookieSecrets.get true).createdAt + cookieSecretEpoch < secs 200 ∧ (Ex.u2 .v03).2.cookieSecrets = (Ex.u1 .v03).2.cookieSecrets := by
    decide +kernel
  rw [he, hcr] at key
  exact ⟨(Ex.u1 .v03).2, .handleMsgUnderLoad (Ex.m1 .v03) Ex.buf [10, 0, 0, 1] (secs 200) (fun _ => Ex.rnd 35), Ex.m1 .v03, [10, 0, 0, 1], Ex.reply (Ex.u2 .v03),
    secs 200, true, cr, e, Ex.u1_reach .v03,
    rfl, rfl, (Ex.u2_result .v03).trans key.2.1, hcr, he, key.1, key.2.2.1, (congrArg Server.cookieSecrets (Ex.u2_state .v03)).trans key.2.2.2⟩

end Verif
