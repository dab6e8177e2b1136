import Verif.Thm.Total
/-
C10 (reply sizes, amplification), C11 (the gate under load), C12 (cookie liveness).
-/
namespace Verif
open HashDomain Server

/-! ### Specification vocabulary -/

/-- The reply types: what each request may be answered with. -/
def Answers : MsgType → MsgType → Prop
  | .initHello, .respHello => True
  | .initHello, .cookieReply => True
  | .respHello, .initConf => True
  | .initConf, .emptyData => True
  | _, _ => False

/-- The sizes of the deployed KEMs: Kyber-512 (ephemeral) and Classic McEliece 460896 (static). -/
structure RealSizes (C : Crypto) : Prop where
  epk : C.epkLen = 800
  ect : C.ectLen = 768
  /-- 188 or 156, depending on the liboqs release -/
  sct : C.sctLen ≤ 188

/-- A cookie secret that may still be used at `now`: it was set, and is younger than two epochs of
120 s (up to the clock granularity of 2.5 ms). -/
def SecretUsable (x : Store) (now : Time) : Prop := 0 ≤ x.createdAt ∧ now + eventGrace ≤ x.createdAt + 2 * secs 120

/-- `rx` is an InitHello whose cookie is the one this secret gives for this sender address. -/
def CookieFits (C : Crypto) (secret host rx : Bytes) : Prop :=
  ∃ e, Env.decode (payloadSize C .initHello) rx = some e ∧ e.cookie = cookieOf C (cookieValueFor C secret host) e

/-- The message carries a cookie for this address: under a usable secret of the server, or, if the
server has none, under the new one it draws (`fresh`). -/
def HasCookie (C : Crypto) (s : Server) (now : Time) (fresh host rx : Bytes) : Prop :=
  (∃ i, SecretUsable (s.cookieSecrets.get i) now ∧ CookieFits C (s.cookieSecrets.get i).value host rx) ∨
  ((∀ i, ¬ SecretUsable (s.cookieSecrets.get i) now) ∧ CookieFits C fresh host rx)

section
variable {C : Crypto}

theorem wireLen_decode {n : Nat} {rx : Bytes} {e : Env} (he : Env.decode n rx = some e) : rx.length = 4 + n + 32 := by
  have := (Env.decode_eq_some he).1
  simp only [Env.size] at this
  rw [this]
  try omega

theorem encode_wire {n : Nat} {e : Env} (h : e.WF n) : e.encode.length = 4 + n + 32 := by
  rw [Env.encode_length h]; simp only [Env.size]; try omega

theorem cookieSize (L : C.Lawful) : CookieReply.size C = 4 + InitHello.size C + 32 := by
  have := L.fits
  simp only [CookieReply.size, CookieReply.innerSize, CookieReply.padLen, Env.size, InitHello.size]
  omega

theorem ackOf_length (L : C.Lawful) (c : Core) (now : Time) (h : HashChoice) (hs : c.sidi.length = 4) :
    (ackOf C (c.enterLive C now .responder h)).encode.length = EmptyData.size := by
  apply EmptyData.encode_length
  refine ⟨?_, toLE_length _ _, by simp [ackOf, L.aead_len]⟩
  simp only [ackOf, Core.enterLive]; exact hs

/-- What `handle_msg` answers. -/
theorem handleMsg_reply (L : C.Lawful) {s : Server} (hctr : s.biscuitCtr.length = 12)
    (hk : ∀ (p : Nat) peer, s.peers[p]? = some peer → ∀ x, peer.known = some x → x.response.WF EmptyData.size)
    {rx tx : Bytes} {now : Time} {r : HashChoice → Rnd} (hr : ∀ h, (r h).WF C) {x m s'}
    (hok : s.handleMsg C rx tx now r = (.ok ⟨x, some m⟩, s')) :
    ∃ t t' : MsgType, Answers t t' ∧ t' ≠ .cookieReply ∧ rx.head? = some t.toU8 ∧ rx.length = wireLen C t ∧
      m.head? = some t'.toU8 ∧ m.length = wireLen C t' := by
  rcases handleMsg_dispatch C s rx tx now r with ⟨y, hx, -⟩ | ⟨t, bs, out, hrx, hout, h⟩
  · rw [hx] at hok; cases hok
  have hhead : rx.head? = some t.toU8 := by rw [hrx]; rfl
  rcases h with ⟨rfl, e, he, hh⟩ | ⟨rfl, e, he, hh⟩ | ⟨rfl, e, he, hh⟩ | ⟨rfl, e, he, hh⟩ | ⟨rfl, cr, he, hh⟩
  · rw [hh] at hok
    rcases msgInitHello_cases C s e out now r with ⟨y, hx⟩ | ⟨h, q, c, peer, rh, R⟩
    · rw [hx] at hok; cases hok
    rw [hok] at R
    rcases R.result with ⟨h1, -⟩ | ⟨h1, -⟩ | ⟨h1, -⟩
    · cases h1
    · cases h1
    cases h1
    refine ⟨.initHello, .respHello, trivial, by decide, hhead, wireLen_decode he, sealMsg_head _ _ _, ?_⟩
    have hih := InitHello.decode_WF (C := C) ((Env.decode_eq_some he).2 ▸ (Env.view_WF (Env.decode_eq_some he).1).2.1)
    obtain ⟨-, c', F⟩ := rhr_facts L (hr h) (ihrVerify_sidi R.verify) hih hctr R.answer
    have hwout := castTx_WF hout
    exact encode_wire (sealMsg_WF L ⟨hwout.1, RespHello.encode_length F.wf, hwout.2.2.1, hwout.2.2.2⟩)
  · rw [hh] at hok
    rcases msgRespHello_cases C s e tx now (r .shake) with ⟨y, hx⟩ | ⟨out', q, c, ic, peer, hs, hc, R⟩
    · rw [hx] at hok; cases hok
    rw [hok] at R
    rcases R.result with ⟨h1, -⟩ | ⟨h1, -⟩ | ⟨h1, h2⟩
    · cases h1
    · cases h1
    cases h1
    refine ⟨.respHello, .initConf, trivial, by decide, hhead, wireLen_decode he, sealMsg_head _ _ _, ?_⟩
    have hrh := RespHello.decode_WF (C := C) ((Env.decode_eq_some he).2 ▸ (Env.view_WF (Env.decode_eq_some he).1).2.1)
    have hwout := castTx_WF hc
    exact encode_wire (sealMsg_WF L ⟨hwout.1, InitConf.encode_length (rhiVerify_ic_WF L hrh R.verify), hwout.2.2.1, hwout.2.2.2⟩)
  · rw [hh] at hok
    rcases msgInitConf_cases C s e tx now with ⟨hx, -⟩ | ⟨out', hc, ⟨q, hq, ⟨x, hx, -⟩ | ⟨peer, k, hp, hkn, hck, hx⟩⟩ | ⟨hn, hf⟩⟩
    · rw [hx] at hok; cases hok
    · rw [hx] at hok; cases hok
    · rw [hx] at hok
      cases hok
      exact ⟨.initConf, .emptyData, trivial, by decide, hhead, wireLen_decode he, sealMsg_head _ _ _,
        encode_wire (sealMsg_WF L (hk q peer hp k hkn))⟩
    · rw [hf] at hok
      rcases msgInitConfFresh_cases C s e out' now with ⟨h, s0, y, -, hx, -⟩ | ⟨h, s0, p, no, c, peer, -, R⟩
      · rw [hx] at hok; cases hok
      rw [hok] at R
      rcases R.result with ⟨⟨y, -, h1⟩, -⟩ | ⟨h1, -⟩ | ⟨h1, -⟩ | ⟨h1, -⟩ | ⟨s2, h1, -⟩
      · cases h1
      · cases h1
      · cases h1
      · cases h1
      cases h1
      refine ⟨.initConf, .emptyData, trivial, by decide, hhead, wireLen_decode he, sealMsg_head _ _ _, ?_⟩
      have hic := InitConf.decode_WF ((Env.decode_eq_some he).2 ▸ (Env.view_WF (Env.decode_eq_some he).1).2.1)
      have hwout := castTx_WF hc
      refine encode_wire (sealMsg_WF L ⟨hwout.1, ackOf_length L _ _ _ ?_, hwout.2.2.1, hwout.2.2.2⟩)
      rw [(icrVerify_core R.verify R.hpeer).2.1]
      exact hic.1
  · rw [hh] at hok
    rcases hrc : s.handleRespConf C e with ⟨_ | _, _⟩ <;> rw [hrc] at hok <;> cases hok
  · rw [hh] at hok
    rcases hrc : s.handleCookieReply C cr now with ⟨_ | _, _⟩ <;> rw [hrc] at hok <;> cases hok

theorem cookieReply_encode_length (L : C.Lawful) (s : Server) (value : Bytes) (hv : value.length = 16) {e : Env} {rx tx : Bytes}
    (he : Env.decode (InitHello.size C) rx = some e) (htx : CookieReply.size C ≤ tx.length) {r : Rnd} (hr : r.WF C) :
    (s.cookieReplyTo C value e tx r).WF C := by
  have hih := InitHello.decode_WF (C := C) ((Env.decode_eq_some he).2 ▸ (Env.view_WF (Env.decode_eq_some he).1).2.1)
  have := cookieSize L
  refine ⟨?_, hih.1, ?_, hr.pad⟩
  · simp only [cookieReplyTo, List.length_take, List.length_drop]
    omega
  · simp only [cookieReplyTo]
    rw [Crypto.xSeal_len L, hr.nonce, hv]

theorem cookieValueFor_length (L : C.Lawful) (k host : Bytes) : (cookieValueFor C k host).length = 16 := by
  simp only [cookieValueFor, HashDomain.mix, List.length_take, Crypto.hash_len L]
  rfl

/-- **C10.** Every reply has a fixed type and length: an InitHello is answered with a RespHello (or,
under load, a CookieReply), a RespHello with an InitConf, an InitConf with an EmptyData, nothing else
is answered, and each has exactly the length of its type. -/
theorem reply_size (L : C.Lawful) {s : Server} (hr : Reachable C s) (o : Op) (ho : o.WF C) (rx : Bytes)
    (hrx : o.received = some rx) (x : Option Nat) (m : Bytes) (hok : o.result C s = .ok ⟨x, some m⟩) :
    ∃ t t' : MsgType, Answers t t' ∧ rx.head? = some t.toU8 ∧ rx.length = wireLen C t ∧
      m.head? = some t'.toU8 ∧ m.length = wireLen C t' := by
  have hk : ∀ (p : Nat) peer, s.peers[p]? = some peer → ∀ x, peer.known = some x → x.response.WF EmptyData.size :=
    fun p peer hp => (Reachable.peerOk L hr p peer hp).known
  have hctr := Reachable.ctrLen L hr
  have direct : ∀ (s1 : Server) (rx tx : Bytes) (now : Time) (r : HashChoice → Rnd), s1.biscuitCtr = s.biscuitCtr → s1.peers = s.peers → (∀ h, (r h).WF C) →
      (s1.handleMsg C rx tx now r).1 = Except.ok ⟨x, some m⟩ →
      ∃ t t' : MsgType, Answers t t' ∧ rx.head? = some t.toU8 ∧ rx.length = wireLen C t ∧
        m.head? = some t'.toU8 ∧ m.length = wireLen C t' := by
    intro s1 rx tx now r h1 h2 hwr h
    obtain ⟨t, t', ha, -, hb⟩ := handleMsg_reply L (s := s1) (h1 ▸ hctr) (h2 ▸ hk) hwr (Prod.ext h rfl)
    exact ⟨t, t', ha, hb⟩
  cases o with
  | addPeer psk pk v osk => cases hrx
  | initiate p now r tx => cases hrx
  | handleMsg rx tx now r => cases hrx; exact direct s _ _ _ _ rfl rfl ho hok
  | handleMsgUnderLoad rx tx host now r =>
    cases hrx
    simp only [Op.result] at hok
    rcases underLoad_cases C s rx tx host now r with ⟨x, -, hx, -⟩ | ⟨-, hx⟩ | ⟨h81, i, ids, s1, -, hs1, ⟨-, hx⟩ |
      ⟨e, he, ⟨-, hx⟩ | ⟨-, ⟨-, hx⟩ | ⟨hl, hx⟩⟩⟩⟩
    · rw [hx] at hok; cases hok
    · rw [hx] at hok; exact direct s _ _ _ _ rfl rfl ho hok
    · rw [hx] at hok; cases hok
    · rw [hx] at hok; exact direct s1 _ _ _ _ (by rw [hs1]) (by rw [hs1]) ho hok
    · rw [hx] at hok; cases hok
    · rw [hx] at hok
      cases hok
      refine ⟨.initHello, .cookieReply, trivial, h81, wireLen_decode he, rfl, ?_⟩
      rw [CookieReply.encode_length (cookieReply_encode_length L s1 _ (cookieValueFor_length L _ _) he hl (ho _)), cookieSize L]
      rfl
  | poll now r => cases hrx
  | retransmit p tx => cases hrx

/-- **C10** (amplification). With the deployed KEMs every reply fits the 2500-byte buffer and is at
most 40 bytes longer than the request; only a RespHello is longer at all, and a CookieReply (the
answer to an unauthenticated sender under load) is exactly as long. -/
theorem reply_amplification (L : C.Lawful) (R : RealSizes C) {s : Server} (hr : Reachable C s) (o : Op) (ho : o.WF C)
    (rx : Bytes) (hrx : o.received = some rx) (x : Option Nat) (m : Bytes) (hok : o.result C s = .ok ⟨x, some m⟩) :
    m.length ≤ 2500 ∧ m.length ≤ rx.length + 40 ∧ (m.head? ≠ some 0x82 → m.length ≤ rx.length) ∧
    (m.head? = some 0x86 → m.length = rx.length) := by
  obtain ⟨t, t', ha, -, h2, h3, h4⟩ := reply_size L hr o ho rx hrx x m hok
  obtain ⟨h5, h6, h7⟩ := R
  rw [h2, h3, h4]
  cases t <;> cases t' <;> (try exact ha.elim) <;>
    (refine ⟨?_, ?_, ?_, ?_⟩ <;> simp only [wireLen, payloadSize, h5, h6, MsgType.toU8] <;> first | omega | (intro h; first | omega | (exfalso; revert h; decide)))

/-! ### C11 -/

theorem lifecycle_some (u t now : Time) : Mortal.lifecycle { retireAt := some u, dieAt := some t } now =
    if t - now < eventGrace then .dead else if u - now < eventGrace then .retired else .young := by
  simp [Mortal.lifecycle, Mortal.youthLeft, Mortal.lifeLeft, hasHappened]

theorem lifecycle_none (now : Time) : Mortal.lifecycle { retireAt := none, dieAt := none } now = .void := rfl

theorem epochs_iff (c g t now : Int) : c + t + t - now < g ↔ ¬ (now + g ≤ c + 2 * t) := by omega

theorem cookieUsable_iff (x : Store) (now : Time) : cookieUsable x now = true ↔ SecretUsable x now := by
  unfold cookieUsable Store.cookieMortal Store.created SecretUsable
  by_cases h : x.createdAt < 0
  · simp only [if_pos h, Option.map_none, lifecycle_none]
    constructor
    · intro h; exact absurd h (by decide)
    · intro h'; exact absurd h (Int.not_lt.mpr h'.1)
  · simp only [if_neg h, Option.map_some, lifecycle_some]
    have he : cookieSecretEpoch = secs 120 := rfl
    rw [he]
    by_cases h1 : x.createdAt + secs 120 + secs 120 - now < eventGrace
    · rw [if_pos h1]
      constructor
      · intro h; exact absurd h (by decide)
      · intro h'; exact absurd h'.2 ((epochs_iff _ _ _ _).mp h1)
    · rw [if_neg h1]
      constructor
      · intro _; exact ⟨Int.not_lt.mp h, Decidable.not_not.mp (fun hh => h1 ((epochs_iff _ _ _ _).mpr hh))⟩
      · intro _; by_cases h2 : x.createdAt + secs 120 - now < eventGrace
        · rw [if_pos h2]; rfl
        · rw [if_neg h2]; rfl

/-- The secrets the server considers, and whether it draws a new one. -/
theorem activeCookieSecrets_spec (s : Server) (now : Time) (fresh : Bytes) :
    ((∃ i, SecretUsable (s.cookieSecrets.get i) now) ∧ (s.activeCookieSecrets now fresh).2 = s ∧
      ∀ i, i ∈ (s.activeCookieSecrets now fresh).1 ↔ SecretUsable (s.cookieSecrets.get i) now) ∨
    ((∀ i, ¬ SecretUsable (s.cookieSecrets.get i) now) ∧ ∃ i, (s.activeCookieSecrets now fresh) =
      ([i], { s with cookieSecrets := s.cookieSecrets.set i { createdAt := now, value := fresh } })) := by
  simp only [← cookieUsable_iff]
  unfold activeCookieSecrets
  simp only
  generalize (if s.cookieSecrets.a.createdAt ≥ s.cookieSecrets.b.createdAt then false else true) = y
  cases h1 : cookieUsable (s.cookieSecrets.get y) now <;> cases h2 : cookieUsable (s.cookieSecrets.get !y) now <;>
    cases y <;> simp_all

theorem Two.get_set (t : Two) (i : Bool) (x : Store) : (t.set i x).get i = x := by cases i <;> rfl
theorem Two.get_set_ne (t : Two) {i j : Bool} (h : j ≠ i) (x : Store) : (t.set i x).get j = t.get j := by
  cases i <;> cases j <;> first | rfl | exact absurd rfl h

theorem cookieOf_length (L : C.Lawful) (v : Bytes) (e : Env) : (cookieOf C v e).length = 16 := by
  simp only [cookieOf, HashDomain.mix, List.length_take, Crypto.hash_len L]
  rfl

theorem cookieValid_iff (L : C.Lawful) (s : Server) (ids : List Bool) (host : Bytes) {rx : Bytes} {e : Env}
    (he : Env.decode (InitHello.size C) rx = some e) :
    s.cookieValid C ids host e = true ↔ ∃ i ∈ ids, CookieFits C (s.cookieSecrets.get i).value host rx := by
  unfold cookieValid CookieFits
  rw [List.any_eq_true]
  have hwf := (Env.decode_eq_some he).2 ▸ (Env.view_WF (Env.decode_eq_some he).1)
  constructor
  · rintro ⟨i, hi, h⟩
    exact ⟨i, hi, e, he, (ConstantTime.memcmp_iff_eq _ _).mp h⟩
  · rintro ⟨i, hi, e', he', h⟩
    have : payloadSize C .initHello = InitHello.size C := rfl
    rw [this, he] at he'
    cases he'
    exact ⟨i, hi, (ConstantTime.memcmp_iff_eq _ _).mpr h⟩

/-- The check the server makes under load is `HasCookie`. -/
theorem gate_iff (L : C.Lawful) {s s1 : Server} {now : Time} {fresh host rx : Bytes} {ids : List Bool} {e : Env}
    (hact : s.activeCookieSecrets now fresh = (ids, s1)) (he : Env.decode (InitHello.size C) rx = some e) :
    s1.cookieValid C ids host e = true ↔ HasCookie C s now fresh host rx := by
  rw [cookieValid_iff L s1 ids host he]
  rcases activeCookieSecrets_spec s now fresh with ⟨⟨i0, hi0⟩, h2, h3⟩ | ⟨h1, i, h2⟩
  · rw [hact] at h2 h3
    simp only at h2 h3
    subst h2
    constructor
    · rintro ⟨i, hi, hc⟩
      exact Or.inl ⟨i, (h3 i).mp hi, hc⟩
    · rintro (⟨i, hi, hc⟩ | ⟨hn, -⟩)
      · exact ⟨i, (h3 i).mpr hi, hc⟩
      · exact absurd hi0 (hn i0)
  · rw [hact] at h2
    cases h2
    constructor
    · rintro ⟨j, hj, hc⟩
      simp only [List.mem_singleton] at hj
      subst hj
      simp only [Two.get_set] at hc
      exact Or.inr ⟨h1, hc⟩
    · rintro (⟨j, hj, hc⟩ | ⟨-, hc⟩)
      · exact absurd hj (h1 j)
      · refine ⟨i, List.mem_singleton.mpr rfl, ?_⟩
        simp only [Two.get_set]
        exact hc

/-- the effect the gate itself may have: a new cookie secret if none is usable -/
def SecretsAfter (s : Server) (now : Time) (fresh : Bytes) (st : Two) : Prop :=
  st = s.cookieSecrets ∨
  ((∀ i, ¬ SecretUsable (s.cookieSecrets.get i) now) ∧ ∃ i, st = s.cookieSecrets.set i { createdAt := now, value := fresh })

theorem secretsAfter (s : Server) (now : Time) (fresh : Bytes) :
    SecretsAfter s now fresh (s.activeCookieSecrets now fresh).2.cookieSecrets := by
  rcases activeCookieSecrets_spec s now fresh with ⟨-, h2, -⟩ | ⟨h1, i, h2⟩
  · rw [h2]; exact Or.inl rfl
  · rw [h2]; exact Or.inr ⟨h1, i, rfl⟩

theorem activeCookieSecrets_sk (s : Server) (sk : Bytes) (now : Time) (k : Bytes) :
    ({ s with sskm := sk } : Server).activeCookieSecrets now k =
      ((s.activeCookieSecrets now k).1, { (s.activeCookieSecrets now k).2 with sskm := sk }) := by
  unfold activeCookieSecrets
  simp only
  generalize (_ ++ _ : List Bool) = l
  by_cases hl : l = []
  · rw [if_pos hl, if_pos hl]
  · rw [if_neg hl, if_neg hl]

/-- **C11.** Under load, for every message:
* InitConf is processed as usual;
* everything but InitHello and InitConf is rejected without effect;
* an InitHello without a valid cookie for the sender's address causes no effect at all, other than
  that the server may draw a new cookie secret if it has none; the result is an error or a
  CookieReply, and it does not depend on the server's secret key: no handshake work is done;
* an InitHello with a valid cookie is processed as usual. -/
theorem under_load_gate (L : C.Lawful) (s : Server) (rx tx host : Bytes) (now : Time) (r : HashChoice → Rnd) :
    let out := s.handleMsgUnderLoad C rx tx host now r
    let fresh := (r .shake).csecret
    (rx.head? = some 0x83 → out = s.handleMsg C rx tx now r) ∧
    (rx.head? ≠ some 0x81 → rx.head? ≠ some 0x83 → ∃ x, out = (.error x, s)) ∧
    (rx.head? = some 0x81 → ¬ HasCookie C s now fresh host rx →
      (∃ st, out.2 = { s with cookieSecrets := st } ∧ SecretsAfter s now fresh st) ∧
      ((∃ x, out.1 = .error x) ∨ ∃ m, out.1 = .ok ⟨none, some m⟩ ∧ m.head? = some 0x86) ∧
      (∀ sk, (({ s with sskm := sk } : Server).handleMsgUnderLoad C rx tx host now r).1 = out.1)) ∧
    (rx.head? = some 0x81 → HasCookie C s now fresh host rx →
      ∃ st, SecretsAfter s now fresh st ∧ out = ({ s with cookieSecrets := st } : Server).handleMsg C rx tx now r) := by
  intro out fresh
  have key : ∀ b, (b : Bytes).head? = some 0x81 → b.head? ≠ some 0x83 := by
    intro b hb h; rw [hb] at h; exact absurd h (by decide)
  have hsa := secretsAfter s now fresh
  have hout : out = s.handleMsgUnderLoad C rx tx host now r := rfl
  clear_value out
  rcases underLoad_cases C s rx tx host now r with ⟨x, -, hx, hn1, hn2⟩ | ⟨h83, hx⟩ | ⟨h81, i, ids, s1, hact, hs1, hc⟩
  · exact ⟨fun h => absurd h hn2, fun _ _ => ⟨x, by rw [hout, hx]⟩, fun h => absurd h hn1, fun h => absurd h hn1⟩
  · exact ⟨fun _ => by rw [hout, hx], fun _ h => absurd h83 h, fun h => absurd h83 (key _ h), fun h => absurd h83 (key _ h)⟩
  refine ⟨fun h => absurd h (key _ h81), fun h _ => absurd h81 h, ?_, ?_⟩
  · intro _ hno
    rw [hact] at hsa
    simp only at hsa
    have hno' : ∀ e, Env.decode (InitHello.size C) rx = some e → s1.cookieValid C (i :: ids) host e = false := by
      intro e he
      cases h : s1.cookieValid C (i :: ids) host e with
      | false => rfl
      | true => exact absurd ((gate_iff L hact he).mp h) hno
    have hst : ∃ st, s1 = { s with cookieSecrets := st } ∧ SecretsAfter s now fresh st := ⟨_, hs1, hsa⟩
    have hskey : ∀ sk, (({ s with sskm := sk } : Server).handleMsgUnderLoad C rx tx host now r).1 =
        (s.handleMsgUnderLoad C rx tx host now r).1 := by
      intro sk
      have hactk := activeCookieSecrets_sk s sk now (r .shake).csecret
      rw [hact] at hactk
      cases rx with
      | nil => rfl
      | cons b bs =>
        have hb : b = 0x81 := by simpa using h81
        subst hb
        have ht : MsgType.ofU8 0x81 = some .initHello := rfl
        simp only [handleMsgUnderLoad, ht, hactk, hact]
        cases he : Env.decode (InitHello.size C) (0x81 :: bs) with
        | none => rfl
        | some e =>
          have h1 : ({ s1 with sskm := sk } : Server).cookieValid C (i :: ids) host e = s1.cookieValid C (i :: ids) host e := rfl
          simp only [h1, hno' e he]
          by_cases hl : tx.length < CookieReply.size C
          · simp only [hl, if_true]; rfl
          · simp only [hl, if_false]; rfl
    rw [hout]
    refine ⟨?_, ?_, hskey⟩
    all_goals
      rcases hc with ⟨-, hx⟩ | ⟨e, he, ⟨hv, hx⟩ | ⟨-, ⟨-, hx⟩ | ⟨-, hx⟩⟩⟩
      · rw [hx]; first | exact hst | exact Or.inl ⟨_, rfl⟩
      · rw [hno' e he] at hv; cases hv
      · rw [hx]; first | exact hst | exact Or.inl ⟨_, rfl⟩
      · rw [hx]; first | exact hst | exact Or.inr ⟨_, rfl, rfl⟩
  · intro _ hyes
    rw [hact] at hsa
    simp only at hsa
    refine ⟨s1.cookieSecrets, hsa, ?_⟩
    rw [← hs1, hout]
    obtain ⟨e, he⟩ : ∃ e, Env.decode (InitHello.size C) rx = some e := by
      rcases hyes with ⟨_, _, e, he, -⟩ | ⟨-, e, he, -⟩ <;> exact ⟨e, he⟩
    have hv := (gate_iff L hact he).mpr hyes
    rcases hc with ⟨he', hx⟩ | ⟨e', he', ⟨hv', hx⟩ | ⟨hv', -⟩⟩
    · rw [he] at he'; cases he'
    · exact hx
    · rw [he] at he'; cases he'
      rw [hv] at hv'; cases hv'

end
end Verif
