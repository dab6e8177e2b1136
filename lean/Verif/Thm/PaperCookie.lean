import Verif.Thm.Paper
import Verif.Thm.Secrets
import Verif.Thm.CookieBind
/-
C133: the cookie mechanism against the white paper (whitepaper.md:590-645 and the message-types figure).
-/
namespace Verif
open HashDomain Server

section
variable {C : Crypto}

/-- an InitHello on the wire: everything before the MAC, the MAC, the cookie field -/
theorem hello_split {w mac ck : Bytes} (hw : w.length = 4 + InitHello.size C) (hmac : mac.length = 16) (hck : ck.length = 16) :
    ∃ e : Env, e.WF (InitHello.size C) ∧ w ++ mac ++ ck = e.encode ∧ e.toMac = w ∧ e.mac = mac ∧ e.cookie = ck ∧
      Env.decode (InitHello.size C) (w ++ mac ++ ck) = some e ∧ (InitHello.decode C e.payload).sidi = (w.drop 4).take 4 := by
  cases w with
  | nil => simp at hw; omega
  | cons t w =>
    have hl : w.length = 3 + InitHello.size C := by simp only [List.length_cons] at hw; omega
    let e : Env := { msgType := t, reserved := w.take 3, payload := w.drop 3, mac := mac, cookie := ck }
    have hwf : e.WF (InitHello.size C) := ⟨by show (w.take 3).length = 3; rw [List.length_take]; omega, by show (w.drop 3).length = _; rw [List.length_drop]; omega, hmac, hck⟩
    have hm : e.toMac = t :: w := by
      show t :: (w.take 3 ++ w.drop 3) = _
      rw [List.take_append_drop]
    have he : (t :: w) ++ mac ++ ck = e.encode := by
      show _ = e.toMac ++ mac ++ ck
      rw [hm]
    refine ⟨e, hwf, he, hm, rfl, rfl, ?_, rfl⟩
    rw [he]
    unfold Env.decode
    rw [if_pos (Env.encode_length hwf), Env.view_encode hwf]

/-- **C133 (1)** Under load, an InitHello `w ++ mac ++ cookie` from `host` whose cookie field is the one the
paper prescribes for a cookie secret in use is handled as if the server were not under load; any other is
answered with the paper's CookieReply, for the session ID of the message, bound to its MAC and made with a
secret in use, and nothing else happens. Missing: the paper's CookieReply ends there, the code's is padded
to the size of the InitHello. -/
theorem under_load_as_in_paper_partial (L : C.Lawful) (s : Server) {w mac ck tx host : Bytes} {now : Time} {r : HashChoice → Rnd}
    (hr : ∀ h, (r h).WF C) (h0 : 0 ≤ now) (hw : w.length = 4 + InitHello.size C) (h81 : w.head? = some 0x81) (hmac : mac.length = 16) (hck : ck.length = 16)
    (htx : Env.size (InitHello.size C) ≤ tx.length) :
    let out := s.handleMsgUnderLoad C (w ++ mac ++ ck) tx host now r
    (∀ i, SecretUsable (s.cookieSecrets.get i) now → ck = Paper.cookie C (Paper.cookieValue C (s.cookieSecrets.get i).value host) (w ++ mac) →
      out = s.handleMsg C (w ++ mac ++ ck) tx now r) ∧
    ((∀ secret, ((∃ i, SecretUsable (s.cookieSecrets.get i) now ∧ secret = (s.cookieSecrets.get i).value) ∨ secret = (r .shake).csecret) →
        ck ≠ Paper.cookie C (Paper.cookieValue C secret host) (w ++ mac)) →
      ∃ i rsvd pad, SecretUsable (out.2.cookieSecrets.get i) now ∧ rsvd.length = 3 ∧
        pad.length = (w ++ mac ++ ck).length - 64 ∧
        out.1 = .ok ⟨none, some ([0x86] ++ rsvd ++ (w.drop 4).take 4 ++
          Paper.cookieEncrypted C s.spkm (r .shake).nonce (Paper.cookieValue C (out.2.cookieSecrets.get i).value host) mac ++ pad)⟩ ∧
        out.2 = { s with cookieSecrets := out.2.cookieSecrets }) := by
  intro out
  obtain ⟨e, hwf, hen, hem, hemac, hec, hdec, hsid⟩ := hello_split (C := C) hw hmac hck
  have htc : e.toCookie = w ++ mac := by unfold Env.toCookie; rw [hem, hemac]
  have hfit : ∀ secret, CookieFits C secret host (w ++ mac ++ ck) ↔ ck = Paper.cookie C (Paper.cookieValue C secret host) (w ++ mac) := by
    intro secret
    have hpc : Paper.cookie C (Paper.cookieValue C secret host) (w ++ mac) = cookieOf C (cookieValueFor C secret host) e := by
      rw [Paper.cookieValue_eq, ← htc, Paper.cookie_eq]
    rw [hpc]
    constructor
    · rintro ⟨e', he', h⟩
      rw [show payloadSize C .initHello = InitHello.size C from rfl, hdec] at he'
      cases he'
      rw [← hec]; exact h
    · intro h
      exact ⟨e, hdec, by rw [hec]; exact h⟩
  have hhead : (w ++ mac ++ ck).head? = some 0x81 := by
    cases w with
    | nil => cases h81
    | cons a w => exact h81
  constructor
  · intro i hu hc
    have hhas : HasCookie C s now (r .shake).csecret host (w ++ mac ++ ck) := .inl ⟨i, hu, (hfit _).mpr hc⟩
    obtain ⟨st, hst, hx⟩ := (under_load_gate L s (w ++ mac ++ ck) tx host now r).2.2.2 hhead hhas
    rcases hst with rfl | ⟨hno, -⟩
    · exact hx
    · exact absurd hu (hno i)
  · intro hno
    have hnot : ¬ HasCookie C s now (r .shake).csecret host (w ++ mac ++ ck) := by
      rintro (⟨i, hu, hf⟩ | ⟨-, hf⟩)
      · exact hno _ (.inl ⟨i, hu, rfl⟩) ((hfit _).mp hf)
      · exact hno _ (.inr rfl) ((hfit _).mp hf)
    have h83 : (w ++ mac ++ ck).head? ≠ some 0x83 := by rw [hhead]; decide
    rcases underLoad_cases C s (w ++ mac ++ ck) tx host now r with ⟨x, -, -, h, -⟩ | ⟨h, -⟩ | ⟨-, i, ids, s1, hact, hs1, ⟨h, -⟩ | ⟨e', he', hx⟩⟩
    · exact absurd hhead h
    · exact absurd h h83
    · rw [hdec] at h; cases h
    rw [hdec] at he'; cases he'
    have hcs : CookieReply.size C = Env.size (InitHello.size C) := by
      rw [cookieSize L]; rfl
    rcases hx with ⟨hv, -⟩ | ⟨-, ⟨h, -⟩ | ⟨hl, hx⟩⟩
    · exact absurd ((gate_iff L hact hdec).mp hv) hnot
    · omega
    have h2 : out = (.ok ⟨none, some (s1.cookieReplyTo C (cookieValueFor C (s1.cookieSecrets.get i).value host) e tx (r .shake)).encode⟩, s1) := hx
    rw [h2]
    refine ⟨i, (tx.drop 1).take 3, (r .shake).pad, active_usable h0 hact i (by simp), ?_, ?_, ?_, ?_⟩
    · rw [List.length_take, List.length_drop]
      simp only [Env.size] at htx; omega
    · rw [(hr .shake).pad, hen, Env.encode_length hwf]; rfl
    · show Except.ok _ = Except.ok _
      rw [Paper.cookieEncrypted_eq, Paper.cookieValue_eq, ← hsid, ← hemac, show s.spkm = s1.spkm from by rw [hs1]]
      simp only [CookieReply.encode, cookieReplyTo, List.append_assoc]
      rfl
    · exact hs1

/-- **C133 (2)** An initiator that waits for an answer to its InitHello `w ++ mac ++ ck` and gets the paper's
CookieReply for it (padded to the size of an InitHello, which the paper does not ask for) sends its InitHello
again with the paper's cookie field under the value in the reply, and otherwise unchanged. -/
theorem cookie_used_as_in_paper_partial (L : C.Lawful) {A : Server} {p : Nat} {spk w mac ck : Bytes}
    (hw : w.length = 4 + InitHello.size C) (hmac : mac.length = 16) (hck : ck.length = 16)
    (hpend : Pending C A p spk (w ++ mac ++ ck)) {rsvd nonce value pad : Bytes} (hrs : rsvd.length = 3) (hn : nonce.length = 24) (hv : value.length = 16)
    (hpad : pad.length = (w ++ mac ++ ck).length - 64)
    (txA txR : Bytes) (hA : FitsAll C txA) (hR : FitsAll C txR) (t : Time) (r : HashChoice → Rnd) :
    ∃ A1, A.handleMsg C ([0x86] ++ rsvd ++ (w.drop 4).take 4 ++ Paper.cookieEncrypted C spk nonce value mac ++ pad) txA t r = (.ok ⟨none, none⟩, A1) ∧
      A1.retransmit C p txR = (.ok (w ++ mac ++ Paper.cookie C value (w ++ mac)), A1) := by
  obtain ⟨peer, hs, e0, hp, hpk, hhs, he, h81, htl, htb, htake, hsid, hidx⟩ := hpend
  obtain ⟨e', hwf, hen, hem, hemac, hec, hdec, hsid'⟩ := hello_split (C := C) hw hmac hck
  have htc : e'.toCookie = w ++ mac := by unfold Env.toCookie; rw [hem, hemac]
  have hn' : payloadSize C .initHello = InitHello.size C := rfl
  rw [hn', hdec, Option.some.injEq] at he
  rw [← he] at hsid
  have hlen : (w ++ mac ++ ck).length = Env.size (InitHello.size C) := by rw [hen]; exact Env.encode_length hwf
  have hview : e' = Env.view (InitHello.size C) (w ++ mac ++ ck) := (Env.decode_eq_some hdec).2
  have hfitR : Env.size (InitHello.size C) ≤ txR.length := by
    have := hR .initHello
    rw [hn'] at this
    simp only [Env.size]; omega
  have hcast0 : castTx (InitHello.size C) hs.txBuf = some e' := by
    unfold castTx
    have hfit := L.fits
    rw [if_neg (by simp only [Env.size, InitHello.size]; omega), ← hlen, htake, ← hview]
  have hlast : lastMac C hs = .ok e'.mac := by
    have h1 : hs.txBuf.headD 0 = 0x81 := by
      have h2 : hs.txBuf.head? = some 0x81 := by
        rw [← h81, ← htake, List.head?_take, if_neg]
        rw [hlen]; simp only [Env.size]; omega
      cases hb : hs.txBuf with
      | nil => rw [hb] at h2; cases h2
      | cons x xs => rw [hb] at h2; simpa using h2
    have ht : MsgType.ofU8 0x81 = some .initHello := rfl
    simp only [lastMac, h1, ht, hcast0]
  rw [hsid'] at hsid
  let cr : CookieReply := { msgType := 0x86, reserved := rsvd, sid := (w.drop 4).take 4, cookieEncrypted := Paper.cookieEncrypted C spk nonce value mac, padding := pad }
  have hcrwf : cr.WF C := by
    refine ⟨hrs, ?_, ?_, ?_⟩
    · show ((w.drop 4).take 4).length = 4
      rw [List.length_take, List.length_drop, hw]; simp only [InitHello.size]; omega
    · show (Paper.cookieEncrypted C spk nonce value mac).length = 56
      rw [Paper.cookieEncrypted_eq, Crypto.xSeal_len L, hn, hv]
    · show pad.length = CookieReply.padLen C
      rw [hpad, hlen]; rfl
  have hmsg : [0x86] ++ rsvd ++ (w.drop 4).take 4 ++ Paper.cookieEncrypted C spk nonce value mac ++ pad = cr.encode := by
    simp only [CookieReply.encode, cr, List.append_assoc]; rfl
  have hcr : CookieReply.decode C cr.encode = some cr := CookieReply.decode_encode hcrwf
  have hpeer : A.cookieReplyPeer cr.sid = some p := by
    unfold cookieReplyPeer lookupSession lookupHandshake
    rw [show cr.sid = hs.core.sidi from hsid, hidx]
    have hh : (A.handshake p).map (·.core.sidi) = some hs.core.sidi := by
      unfold handshake; rw [hp]; simp [hhs]
    simp only [hh, if_true]
    split <;> rename_i hsome
    · split at hsome
      · exact hsome.symm
      · cases hsome
    · rfl
  have hopen : C.xOpen (cookieKey C spk) e'.mac cr.cookieEncrypted = some value := by
    show C.xOpen (cookieKey C spk) e'.mac (Paper.cookieEncrypted C spk nonce value mac) = some value
    rw [Paper.cookieEncrypted_eq, hemac]
    exact Crypto.xOpen_xSeal L _ _ _ _ hn
  have hcrA : A.handleCookieReply C cr t = (.ok p, A.modHs p (fun h => { h with cookieValue := { createdAt := t, value := value }, txRetryAt := t, txCount := h.txCount + 1 })) := by
    unfold handleCookieReply
    simp only [hpeer, hp, hhs, hlast, hpk, hopen]
  obtain ⟨out, hout⟩ : ∃ o, castTx (RespHello.size C) txA = some o := castTx_isSome (by
    have := hA .respHello
    simp only [payloadSize] at this
    simp only [RespHello.size, biscuitCtLen]; omega)
  refine ⟨A.modHs p (fun h => { h with cookieValue := { createdAt := t, value := value }, txRetryAt := t, txCount := h.txCount + 1 }), ?_, ?_⟩
  · have ht : MsgType.ofU8 0x86 = some .cookieReply := rfl
    have hcons : cr.encode = 0x86 :: (rsvd ++ (cr.sid ++ (cr.cookieEncrypted ++ pad))) := rfl
    rw [hmsg]
    rw [hcons] at hcr ⊢
    simp only [handleMsg, ht, hout, hcr, hcrA]
  · generalize hA1 : A.modHs p _ = A1
    have hget : ∃ hs1, A1.peers[p]? = some { peer with handshake := some hs1 } ∧ hs1.txBuf = hs.txBuf ∧ hs1.txLen = hs.txLen ∧ hs1.cookieValue.value = value := by
      rw [← hA1]
      refine ⟨{ hs with cookieValue := { createdAt := t, value := value }, txRetryAt := t, txCount := hs.txCount + 1 }, ?_, rfl, rfl, rfl⟩
      unfold modHs modPeer
      simp only [List.getElem?_modify, hp, if_true]
      show some _ = some _
      rw [Option.some.injEq]
      simp only [hhs, Option.map_some]
    obtain ⟨hs1, hg1, hg2, hg3, hg4⟩ := hget
    have hwf3 : ({ e' with cookie := cookieOf C value e' } : Env).WF (InitHello.size C) := ⟨hwf.1, hwf.2.1, hwf.2.2.1, cookieOf_length L _ _⟩
    have hlen3 := Env.encode_length hwf3
    unfold retransmit
    simp only [hg1, hg2, hg3]
    rw [if_neg (by rw [htb, htl, hlen]; have := L.fits; simp only [Env.size, InitHello.size]; omega)]
    have hcp : cpyMin (hs.txBuf.take hs.txLen) txR = (w ++ mac ++ ck) ++ txR.drop (w ++ mac ++ ck).length := by
      rw [htl, htake]
      unfold cpyMin
      rw [List.take_of_length_le (by rw [hlen]; exact hfitR)]
    rw [hcp]
    have hcast : castTx (InitHello.size C) ((w ++ mac ++ ck) ++ txR.drop (w ++ mac ++ ck).length) = some e' := by
      unfold castTx
      rw [if_neg (by rw [List.length_append, hlen]; omega), List.take_left' hlen, ← hview]
    rw [hcast]
    simp only [sealCookie, hg4]
    rw [htl, hlen, List.take_left' hlen3, ← htc, Paper.cookie_eq]
    rfl

/-- **C133 (counterexample)** The CookieReply of the paper, 64 bytes, is not accepted by the code, whatever its
contents. -/
theorem paper_cookie_reply_refused (s : Server) {m tx : Bytes} {t : Time} {r : HashChoice → Rnd} (hh : m.head? = some 0x86) (hl : m.length = 64) :
    ∃ x, s.handleMsg C m tx t r = (.error x, s) := by
  cases m with
  | nil => cases hh
  | cons b bs =>
    have hb : b = 0x86 := by simpa using hh
    subst hb
    have ht : MsgType.ofU8 0x86 = some .cookieReply := rfl
    have hd : CookieReply.decode C (0x86 :: bs) = none := by
      unfold CookieReply.decode
      rw [if_neg]
      rw [hl]
      simp only [CookieReply.size, CookieReply.innerSize, CookieReply.padLen, Env.size, InitHello.size]
      omega
    unfold handleMsg
    simp only [ht]
    cases castTx (RespHello.size C) tx with
    | none => exact ⟨_, rfl⟩
    | some out => simp only [hd]; exact ⟨_, rfl⟩

/-- **C133** What the cookie field of a first InitHello is: the paper's cookie under a random value. -/
theorem first_cookie_random {s s' : Server} {p : Nat} {now : Time} {r : Rnd} {tx m : Bytes} (hok : s.initiate C p now r tx = (.ok m, s')) :
    ∃ w, m = w ++ Paper.cookie C r.cookie w := by
  rcases initiate_cases C s p now r tx with ⟨x, hx⟩ | ⟨peer, ih, hs, e, hp, hi, hc, hidx, hx⟩
  · rw [hx] at hok; cases hok
  · simp only at hx
    rw [hx, Prod.mk.injEq, Except.ok.injEq] at hok
    obtain ⟨hm, -⟩ := hok
    have hck : hs.cookieValue.value = r.cookie := by
      unfold initiation at hi
      simp only at hi
      split at hi
      · cases hi
      · split at hi
        · cases hi
        · simp only [Option.some.injEq, Prod.mk.injEq] at hi
          rw [← hi.2]; rfl
    rw [← hm]
    unfold sealMsg sealCookie
    simp only [hck]
    rw [← Paper.cookie_eq]
    exact ⟨_, rfl⟩

end

/-- **C133 (counterexample)** The paper asks for a zero cookie field in a first InitHello; the code's is not zero. -/
theorem first_cookie_not_zero (v : Version) : (Ex.A0 v).initiate Toy.crypto 0 0 (Ex.rnd 9) Ex.buf = (.ok (Ex.m1 v), Ex.A1 v) ∧
    (Ex.m1 v).drop ((Ex.m1 v).length - 16) ≠ List.replicate 16 0 := by
  exact ⟨Ex.c1_eq v (by cases v <;> decide +kernel), by cases v <;> decide +kernel⟩

/-! In the toy run: a refusal, its use, and a first message with a cookie field that is not zero. -/
example (v : Version) : (Ex.reply (Ex.u1 v)).head? = some 0x86 ∧ (Ex.m1 v).head? = some 0x81 ∧
    (Ex.reply (Ex.k3 v [10, 0, 0, 1])).head? = some 0x82 ∧
    (Ex.m1 v).drop ((Ex.m1 v).length - 16) ≠ List.replicate 16 0 := by cases v <;> decide +kernel
/-- The hypotheses about sizes are those of the InitHello `m1`. -/
example (v : Version) : (Ex.m1 v).length = 4 + InitHello.size Toy.crypto + 16 + 16 ∧ Env.size (InitHello.size Toy.crypto) ≤ Ex.buf.length := by
  cases v <;> decide +kernel
/-- … and the initiator waits for an answer to it. -/
example (v : Version) : Pending Toy.crypto (Ex.A1 v) 0 (Ex.B0 v).spkm (Ex.m1 v) := by
  have M := Ex.registered v
  have := initiate_pending (A := Ex.A0 v) (A1 := Ex.A1 v) (m := Ex.m1 v) (now := 0) (tx := Ex.buf) Toy.lawful Toy.kemTotal (Ex.rnd_WF 9) M.atA (by cases v <;> decide +kernel) (by cases v <;> decide +kernel)
    (Ex.c1_eq v (by cases v <;> decide +kernel))
  rw [M.keyB] at this
  exact this

end Verif
