import Verif.Thm.Load
import Verif.Thm.Authentic
import Verif.Thm.Secrets
/-
C100: a cookie vouches for one message from one address, a seal for one message to one receiver, and a cookie reply is for the initiator of one message to
one responder. All statements are reductions to a collision of the hash truncated to 16 bytes, or to a ciphertext that opens in two ways.
-/
namespace Verif
open HashDomain Server
variable {C : Crypto}

/-! ### Specification -/

/-- a hash computation: hash function, key and data -/
abbrev Query := HashChoice × Bytes × Bytes

/-- two different computations of the list agree on their first 16 bytes -/
def ShortCollision (C : Crypto) (qs : List Query) : Prop :=
  ∃ q ∈ qs, ∃ q' ∈ qs, q ≠ q' ∧ (C.hash q.1 q.2.1 q.2.2).take 16 = (C.hash q'.1 q'.2.1 q'.2.2).take 16

/-- the hash computations of the value issued to `host`, after those of the domain -/
def valueQueries (C : Crypto) (secret host : Bytes) : List Query :=
  let k := dom C .shake .cookieValue
  [(.shake, k, secret), (.shake, C.hash .shake k secret, host)]

/-- the hash computations of the cookie over the bytes `b` for `host` -/
def cookieQueries (C : Crypto) (secret host b : Bytes) : List Query :=
  let k := dom C .shake .cookie
  let v := (C.hash .shake (C.hash .shake (dom C .shake .cookieValue) secret) host).take 16
  valueQueries C secret host ++ [(.shake, k, v), (.shake, C.hash .shake k v, b)]

/-- the hash computations of the seal over the bytes `b` for the receiver `spk` -/
def sealQueries (C : Crypto) (h : HashChoice) (spk b : Bytes) : List Query :=
  let k := dom C h .mac
  [(h, k, spk), (h, C.hash h k spk, b)]

/-- one ciphertext that opens under two different pairs of key and additional data -/
def OpensTwoWays (C : Crypto) (ct : Bytes) : Prop :=
  ∃ k ad k' ad', (k, ad) ≠ (k', ad') ∧ (C.xOpen k ad ct).isSome ∧ (C.xOpen k' ad' ct).isSome

/-! ### Lemmas -/

theorem ShortCollision.mono {qs qs' : List Query} (hs : ∀ q ∈ qs, q ∈ qs') (h : ShortCollision C qs) : ShortCollision C qs' := by
  obtain ⟨q, hq, q', hq', h1, h2⟩ := h
  exact ⟨q, hs q hq, q', hs q' hq', h1, h2⟩

theorem short_inj {h h' : HashChoice} {k k' a a' b b' : Bytes} (heq : (C.hash h (C.hash h k a) b).take 16 = (C.hash h' (C.hash h' k' a') b').take 16) :
    (h = h' ∧ k = k' ∧ a = a' ∧ b = b') ∨ ShortCollision C ([(h, k, a), (h, C.hash h k a, b)] ++ [(h', k', a'), (h', C.hash h' k' a', b')]) := by
  by_cases h1 : ((h, C.hash h k a, b) : Query) = (h', C.hash h' k' a', b')
  · simp only [Prod.mk.injEq] at h1
    obtain ⟨rfl, h2, rfl⟩ := h1
    by_cases h3 : ((h, k, a) : Query) = (h, k', a')
    · simp only [Prod.mk.injEq] at h3
      exact .inl ⟨rfl, h3.2.1, h3.2.2, rfl⟩
    · exact .inr ⟨_, by simp, (h, k', a'), by simp, h3, congrArg (List.take 16) h2⟩
  · exact .inr ⟨(h, C.hash h k a, b), by simp, (h', C.hash h' k' a', b'), by simp, h1, heq⟩

theorem cookieOf_inj {secret secret' host host' : Bytes} {e e' : Env}
    (heq : cookieOf C (cookieValueFor C secret host) e = cookieOf C (cookieValueFor C secret' host') e') :
    (secret = secret' ∧ host = host' ∧ e.toCookie = e'.toCookie) ∨
    ShortCollision C (cookieQueries C secret host e.toCookie ++ cookieQueries C secret' host' e'.toCookie) := by
  unfold cookieOf HashDomain.mix at heq
  rcases short_inj heq with ⟨-, -, hv, hb⟩ | h
  · unfold cookieValueFor HashDomain.mix at hv
    rcases short_inj hv with ⟨-, -, h1, h2⟩ | h
    · exact .inl ⟨h1, h2, hb⟩
    · right
      refine h.mono fun q hq => ?_
      simp only [List.mem_append, cookieQueries, valueQueries] at hq ⊢
      rcases hq with hq | hq
      · exact .inl (.inl hq)
      · exact .inr (.inl hq)
  · right
    refine h.mono fun q hq => ?_
    simp only [List.mem_append, cookieQueries, valueQueries] at hq ⊢
    rcases hq with hq | hq
    · exact .inl (.inr hq)
    · exact .inr (.inr hq)

theorem decode_bytes {n : Nat} {rx : Bytes} {e : Env} (he : Env.decode n rx = some e) :
    rx = e.encode ∧ e.toMac = rx.take (rx.length - 32) ∧ e.toCookie = rx.take (rx.length - 16) ∧ e.mac = (rx.drop (rx.length - 32)).take 16 ∧
      e.cookie = rx.drop (rx.length - 16) := by
  obtain ⟨hl, hv⟩ := Env.decode_eq_some he
  have hwf : e.WF n := hv ▸ Env.view_WF hl
  have henc : rx = e.encode := by rw [hv]; exact (Env.encode_view hl).symm
  have hm := hwf.2.2.1
  have hc := hwf.2.2.2
  have hlen : e.encode.length = e.toMac.length + 32 := by
    unfold Env.encode Env.toCookie
    simp only [List.length_append, hm, hc]
  refine ⟨henc, ?_, ?_, ?_, ?_⟩ <;> rw [henc, hlen]
  · unfold Env.encode Env.toCookie
    rw [Nat.add_sub_cancel, List.append_assoc, List.take_left']
    rfl
  · unfold Env.encode
    rw [List.take_left']
    unfold Env.toCookie
    rw [List.length_append, hm]; omega
  · unfold Env.encode Env.toCookie
    rw [Nat.add_sub_cancel, List.append_assoc, List.drop_left' rfl, List.take_left' hm]
  · unfold Env.encode
    rw [List.drop_left']
    unfold Env.toCookie
    rw [List.length_append, hm]; omega

/-! ### The claims -/

/-- the cookie secrets a call under load can check a cookie against -/
def CheckedSecret (s : Server) (r : HashChoice → Rnd) (k : Bytes) : Prop := (∃ i, k = (s.cookieSecrets.get i).value) ∨ k = (r .shake).csecret

theorem answered_has_cookie (L : C.Lawful) {s s1 : Server} {rx tx host m : Bytes} {now : Time} {r : HashChoice → Rnd}
    (hok : s.handleMsgUnderLoad C rx tx host now r = (.ok ⟨none, some m⟩, s1)) (hm : m.head? = some 0x82) :
    ∃ k, CheckedSecret s r k ∧ CookieFits C k host rx := by
  have g := under_load_gate L s rx tx host now r
  simp only at g
  obtain ⟨g1, g2, g3, -⟩ := g
  have h81 : rx.head? = some 0x81 := by
    by_cases h : rx.head? = some 0x81
    · exact h
    by_cases h' : rx.head? = some 0x83
    · have := g1 h'
      rw [hok] at this
      obtain ⟨t, bs, hrx⟩ : ∃ t bs, rx = t :: bs := by cases rx with | nil => cases h' | cons a b => exact ⟨a, b, rfl⟩
      rcases handleMsg_dispatch C s rx tx now r with ⟨y, hx, -⟩ | ⟨t, bs, out, hrx, hout, hh⟩
      · rw [hx] at this; cases this
      rcases hh with ⟨rfl, e, he, hh⟩ | ⟨rfl, e, he, hh⟩ | ⟨rfl, e, he, hh⟩ | ⟨rfl, e, he, hh⟩ | ⟨rfl, cr, he, hh⟩
      · rw [hrx] at h; exact absurd rfl h
      · rw [hrx] at h'; cases h'
      · rw [hh] at this
        rcases msgInitConf_cases C s e tx now with ⟨hx, -⟩ | ⟨out', hc, ⟨q, hq, ⟨x, hx, -⟩ | ⟨peer, k, -, -, -, hx⟩⟩ | ⟨hn, hf⟩⟩
        · rw [hx] at this; cases this
        · rw [hx] at this; cases this
        · rw [hx] at this
          simp only [Prod.mk.injEq, Except.ok.injEq, MsgResult.mk.injEq, Option.some.injEq, true_and] at this
          rw [this.1, sealMsg_head] at hm
          cases hm
        · rw [hf] at this
          rcases msgInitConfFresh_cases C s e out' now with ⟨h', s0, x, hA, hx, -⟩ | ⟨h', s0, q, no, c, peer0, hA, R⟩
          · rw [hx] at this; cases this
          · rw [← this] at R
            rcases R.result with ⟨⟨x, -, h1⟩, -⟩ | ⟨h1, -⟩ | ⟨h1, -⟩ | ⟨h1, -⟩ | ⟨s2, h1, hk, -⟩ <;> cases h1
      · rw [hrx] at h'; cases h'
      · rw [hrx] at h'; cases h'
    · obtain ⟨x, hx⟩ := g2 h h'
      rw [hok] at hx; cases hx
  by_cases hc : HasCookie C s now (r .shake).csecret host rx
  · rcases hc with ⟨i, -, h⟩ | ⟨-, h⟩
    · exact ⟨_, .inl ⟨i, rfl⟩, h⟩
    · exact ⟨_, .inr rfl, h⟩
  · obtain ⟨-, h, -⟩ := g3 h81 hc
    rw [hok] at h
    rcases h with ⟨x, hx⟩ | ⟨m', hx, h86⟩
    · cases hx
    · simp only [Except.ok.injEq, MsgResult.mk.injEq, Option.some.injEq, true_and] at hx
      subst hx
      rw [hm] at h86; cases h86

/-- **C100** (cookies). If, under load, two InitHellos that carry the same cookie (last 16 bytes) are both answered with a RespHello — by any servers at any
times, from any addresses — then they are the same message from the same address, checked against the same secret, or the listed hash computations contain
a collision on 16 bytes. -/
theorem cookie_vouches_once (L : C.Lawful) {s s1 s' s1' : Server} {rx tx host m rx' tx' host' m' : Bytes} {now now' : Time} {r r' : HashChoice → Rnd}
    (hok : s.handleMsgUnderLoad C rx tx host now r = (.ok ⟨none, some m⟩, s1)) (hm : m.head? = some 0x82)
    (hok' : s'.handleMsgUnderLoad C rx' tx' host' now' r' = (.ok ⟨none, some m'⟩, s1')) (hm' : m'.head? = some 0x82)
    (hsame : rx.drop (rx.length - 16) = rx'.drop (rx'.length - 16)) :
    ∃ k k', CheckedSecret s r k ∧ CheckedSecret s' r' k' ∧
      ((k = k' ∧ host = host' ∧ rx = rx') ∨
       ShortCollision C (cookieQueries C k host (rx.take (rx.length - 16)) ++ cookieQueries C k' host' (rx'.take (rx'.length - 16)))) := by
  obtain ⟨k, hk, e, he, hc⟩ := answered_has_cookie L hok hm
  obtain ⟨k', hk', e', he', hc'⟩ := answered_has_cookie L hok' hm'
  refine ⟨k, k', hk, hk', ?_⟩
  obtain ⟨b1, -, b3, -, b5⟩ := decode_bytes he
  obtain ⟨b1', -, b3', -, b5'⟩ := decode_bytes he'
  have hcc : e.cookie = e'.cookie := by rw [b5, b5', hsame]
  rw [hc, hc'] at hcc
  rw [← b3, ← b3']
  rcases cookieOf_inj hcc with ⟨h1, h2, h3⟩ | h
  · left
    refine ⟨h1, h2, ?_⟩
    rw [b1, b1']
    unfold Env.encode
    rw [h3, b5, b5', hsame]
  · exact .inr h

/-- **C100** (seals). If two messages that carry the same seal (the 16 bytes before the cookie) are both processed successfully — by any servers — then the
two servers have the same public key and the messages agree up to the seal, or the listed hash computations contain a collision on 16 bytes. In
particular no message is processed by two servers with different keys, and no sealed byte can be changed. -/
theorem seal_vouches_once {s s1 s' s1' : Server} {rx tx rx' tx' : Bytes} {now now' : Time} {r r' : HashChoice → Rnd} {res res' : MsgResult}
    (hok : s.handleMsg C rx tx now r = (.ok res, s1)) (h86 : rx.head? ≠ some 0x86)
    (hok' : s'.handleMsg C rx' tx' now' r' = (.ok res', s1')) (h86' : rx'.head? ≠ some 0x86)
    (hsame : (rx.drop (rx.length - 32)).take 16 = (rx'.drop (rx'.length - 32)).take 16) :
    ∃ h h', (s.spkm = s'.spkm ∧ rx.take (rx.length - 32) = rx'.take (rx'.length - 32)) ∨
      ShortCollision C (sealQueries C h s.spkm (rx.take (rx.length - 32)) ++ sealQueries C h' s'.spkm (rx'.take (rx'.length - 32))) := by
  rcases handleMsg_ok_sealed hok with ⟨h, -⟩ | ⟨t, e, p, peer, -, -, he, -, hmac, -⟩
  · exact absurd h h86
  rcases handleMsg_ok_sealed hok' with ⟨h, -⟩ | ⟨t', e', p', peer', -, -, he', -, hmac', -⟩
  · exact absurd h h86'
  obtain ⟨-, b2, -, b4, -⟩ := decode_bytes he
  obtain ⟨-, b2', -, b4', -⟩ := decode_bytes he'
  refine ⟨peer.version.hash, peer'.version.hash, ?_⟩
  have hmm : e.mac = e'.mac := by rw [b4, b4', hsame]
  rw [hmac, hmac'] at hmm
  unfold macOf HashDomain.mix at hmm
  rw [← b2, ← b2']
  rcases short_inj hmm with ⟨-, -, h1, h2⟩ | h
  · exact .inl ⟨h1, h2⟩
  · exact .inr h

/-- **C100** (cookie replies). If a CookieReply issued by B for the message `m1` is accepted by A — any server — then it is taken for a handshake in
progress with a peer whose public key is B's, of which the message last sent has the same seal as `m1`; or the key derivation collides on the two
public keys, or the encrypted cookie opens in two ways. -/
theorem cookie_reply_for_one_message (L : C.Lawful) {B B1 A A1 : Server} {m1 m2 txB host txA : Bytes} {tB tA : Time} {rB rA : HashChoice → Rnd} {res : MsgResult}
    (hrB : ∀ h, (rB h).WF C) (h0 : 0 ≤ tB) (hB : B.handleMsgUnderLoad C m1 txB host tB rB = (.ok ⟨none, some m2⟩, B1)) (h86 : m2.head? = some 0x86)
    (hA : A.handleMsg C m2 txA tA rA = (.ok res, A1)) :
    ∃ (p : Nat) (q : Peer) (h : IniHs), A.peers[p]? = some q ∧ q.handshake = some h ∧ (∀ i : Nat, i ≠ p → A1.peers[i]? = A.peers[i]?) ∧
      ((q.spkt = B.spkm ∧ lastMac C h = .ok ((m1.drop (m1.length - 32)).take 16)) ∨
       ShortCollision C [(.shake, dom C .shake .cookieKey, q.spkt), (.shake, dom C .shake .cookieKey, B.spkm)] ∨
       ∃ cr, CookieReply.decode C m2 = some cr ∧ OpensTwoWays C cr.cookieEncrypted) := by
  obtain ⟨i, cr, e, hcr, he, -, hopen, -⟩ := cookie_secret_rotation_partial L B m1 txB host tB rB hrB h0 m2 B1 hB h86
  obtain ⟨-, -, -, b4, -⟩ := decode_bytes he
  rcases cookieReply_effect_partial (C := C) A m2 txA tA rA h86 with ⟨-, x, hx⟩ | ⟨p, q, h, cr', mac, hq, hh, hcr', hmac, hoth, hres⟩
  · rw [hA] at hx; cases hx
  rw [hcr] at hcr'; cases hcr'
  rw [hA] at hoth hres
  refine ⟨p, q, h, hq, hh, hoth, ?_⟩
  rcases hres with ⟨v, hv, -, -⟩ | ⟨-, ⟨x, hx⟩, -⟩
  · by_cases hk : cookieKey C q.spkt = cookieKey C B.spkm
    · by_cases hs : q.spkt = B.spkm
      · by_cases ha : mac = e.mac
        · left; rw [hmac, ha, b4]; exact ⟨hs, rfl⟩
        · right; right
          exact ⟨cr, hcr, _, mac, _, e.mac, fun h => ha (congrArg Prod.snd h), by rw [hv]; rfl, by rw [hopen]; rfl⟩
      · right; left
        exact ⟨(.shake, dom C .shake .cookieKey, q.spkt), by simp, (.shake, dom C .shake .cookieKey, B.spkm), by simp, fun h => hs (Prod.mk.inj (Prod.mk.inj h).2).2, congrArg (List.take 16) hk⟩
    · right; right
      exact ⟨cr, hcr, cookieKey C q.spkt, mac, cookieKey C B.spkm, e.mac, fun h => hk (congrArg Prod.fst h), Option.isSome_iff_exists.mpr ⟨_, hv⟩, Option.isSome_iff_exists.mpr ⟨_, hopen⟩⟩
  · cases hx

/-! ### An example -/

namespace Ex

/-- the initiator accepts the CookieReply and sends its message again -/
def k1 (v : Version) := (A1 v).handleMsg Toy.crypto (reply (u1 v)) buf 5 (fun _ => rnd 30)
def k2 (v : Version) : Bytes := sent ((k1 v).2.retransmit Toy.crypto 0 buf)
/-- the responder's reaction, for the same address and for another one -/
def k3 (v : Version) (host : Bytes) := (u1 v).2.handleMsgUnderLoad Toy.crypto (k2 v) buf host 6 (fun _ => rnd 35)

end Ex

/-- C100: an InitHello with a cookie is answered with a RespHello under load, and with another CookieReply if it comes from another address or if any byte
before the cookie was changed; the CookieReply is accepted. -/
example (v : Version) : (Ex.reply (Ex.k3 v [10, 0, 0, 1])).head? = some 0x82 ∧ (Ex.reply (Ex.k3 v [10, 0, 0, 2])).head? = some 0x86 ∧
    (match (Ex.k1 v).1 with | .ok r => decide (r = ⟨none, none⟩) | _ => false) = true ∧
    (Ex.reply ((Ex.u1 v).2.handleMsgUnderLoad Toy.crypto (Ex.flip (Ex.k2 v) 9) Ex.buf [10, 0, 0, 1] 6 (fun _ => Ex.rnd 35))).head? = some 0x86 ∧
    (Ex.reply ((Ex.u1 v).2.handleMsgUnderLoad Toy.crypto (Ex.flip (Ex.k2 v) ((Ex.k2 v).length - 20)) Ex.buf [10, 0, 0, 1] 6 (fun _ => Ex.rnd 35))).head? = some 0x86 := by
  cases v <;> decide +kernel

end Verif
