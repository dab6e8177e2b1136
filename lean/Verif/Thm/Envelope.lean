import Verif.Thm.CookieBind
import Verif.Thm.ExRun
/-
C110, the envelope: whoever knows a public key can see whether a message is for its holder.
-/
namespace Verif
open HashDomain Server
variable {C : Crypto}

/-! ### Specification -/

/-- The seal of message `m` (the 16 bytes before the last 16) is the one for the holder of the public key `spk`, with hash `h`. This is computed from the message and the
public key alone. -/
def SealFits (C : Crypto) (h : HashChoice) (spk m : Bytes) : Prop :=
  (m.drop (m.length - 32)).take 16 = (C.hash h (C.hash h (dom C h .mac) spk) (m.take (m.length - 32))).take 16

/-! ### Lemmas -/

theorem sealMsg_fits (L : C.Lawful) (peer : Peer) (t : MsgType) {e : Env} (hc : e.cookie.length = 16) : SealFits C peer.version.hash peer.spkt (sealMsg C peer t e).encode := by
  have hl : ∀ h k d, (C.hash h k d).length = 32 := Crypto.hash_len L
  generalize he : sealMsg C peer t e = m
  have hmac : m.mac = macOf C peer.version.hash peer.spkt m := by
    subst he; unfold sealMsg sealCookie; split <;> rfl
  have hml : m.mac.length = 16 := by
    rw [hmac]; unfold macOf HashDomain.mix; rw [List.length_take, hl]; rfl
  have hcl : m.cookie.length = 16 := by
    subst he; unfold sealMsg sealCookie
    split
    · exact hc
    · unfold cookieOf HashDomain.mix
      rw [List.length_take, hl]; rfl
  have hlen : m.encode.length = m.toMac.length + 32 := by
    unfold Env.encode Env.toCookie
    simp only [List.length_append, hml, hcl]
  unfold SealFits
  rw [hlen, Nat.add_sub_cancel]
  have e1 : m.encode = m.toMac ++ (m.mac ++ m.cookie) := by unfold Env.encode Env.toCookie; rw [List.append_assoc]
  rw [e1, List.drop_left' rfl, List.take_left' hml, List.take_left' rfl, hmac]
  rfl

theorem fits_unique {h h' : HashChoice} {spk spk' m : Bytes} (h1 : SealFits C h spk m) (h2 : SealFits C h' spk' m) :
    (h' = h ∧ spk' = spk) ∨ ShortCollision C (sealQueries C h spk (m.take (m.length - 32)) ++ sealQueries C h' spk' (m.take (m.length - 32))) := by
  unfold SealFits at h1 h2
  rw [h1] at h2
  rcases short_inj h2 with ⟨rfl, -, rfl, -⟩ | h
  · exact .inl ⟨rfl, rfl⟩
  · exact .inr h

/-- Message `m` shows that it is for the holder of `spk`: its seal is the one for that key, and for no other key unless two of the listed hash computations agree on 16 bytes. -/
def ShowsReceiver (C : Crypto) (h : HashChoice) (spk m : Bytes) : Prop :=
  SealFits C h spk m ∧ ∀ h' spk', SealFits C h' spk' m →
    (h' = h ∧ spk' = spk) ∨ ShortCollision C (sealQueries C h spk (m.take (m.length - 32)) ++ sealQueries C h' spk' (m.take (m.length - 32)))

theorem shows_receiver (L : C.Lawful) (peer : Peer) (t : MsgType) {e : Env} (hc : e.cookie.length = 16) : ShowsReceiver C peer.version.hash peer.spkt (sealMsg C peer t e).encode :=
  ⟨sealMsg_fits L peer t hc, fun _ _ h => fits_unique (sealMsg_fits L peer t hc) h⟩

/-! ### The claims -/

/-- **C110** (negative, InitHello). Every InitHello shows who the responder is to everybody who knows its public key. -/
theorem hello_shows_responder (L : C.Lawful) {s s1 : Server} {p : Nat} {now : Time} {r : Rnd} {tx m : Bytes} (h : s.initiate C p now r tx = (.ok m, s1)) :
    ∃ peer, s.peers[p]? = some peer ∧ ShowsReceiver C peer.version.hash peer.spkt m := by
  rcases initiate_cases C s p now r tx with ⟨x, hx⟩ | ⟨peer, ih, hs, e, hp, -, hc, -, hx⟩
  · rw [hx] at h; cases h
  · dsimp only at hx
    rw [hx] at h
    injection h with h _
    injection h with h
    subst h
    exact ⟨peer, hp, shows_receiver L { peer with initReq := false, handshake := some hs } _ (castTx_WF hc).2.2.2⟩

/-- **C110** (negative, RespHello and InitConf). Every RespHello shows who the initiator is, and every InitConf who the responder is. -/
theorem answer_shows_receiver (L : C.Lawful) {s s1 : Server} {rx tx m : Bytes} {now : Time} {r : HashChoice → Rnd} {res : MsgResult}
    (h : s.handleMsg C rx tx now r = (.ok res, s1)) (hm : res.resp = some m) (ht : rx.head? = some 0x81 ∨ rx.head? = some 0x82) :
    ∃ (p : Nat) (peer : Peer), s.peers[p]? = some peer ∧ ShowsReceiver C peer.version.hash peer.spkt m ∧
      (rx.head? = some 0x81 → m.head? = some 0x82) ∧ (rx.head? = some 0x82 → m.head? = some 0x83 ∧ res.exchanged = some p) := by
  rcases handleMsg_dispatch C s rx tx now r with ⟨y, hx, -⟩ | ⟨t, bs, out, hrx, hout, hh⟩
  · rw [hx] at h; cases h
  rcases hh with ⟨rfl, e, he, hh⟩ | ⟨rfl, e, he, hh⟩ | ⟨rfl, e, he, hh⟩ | ⟨rfl, e, he, hh⟩ | ⟨rfl, cr, he, hh⟩
  · rw [hh] at h
    rcases msgInitHello_cases C s e out now r with ⟨x, hx⟩ | ⟨hc, p, c, peer, rh, R⟩
    · rw [hx] at h; cases h
    · rcases R.result with ⟨hx, -⟩ | ⟨hx, -⟩ | ⟨hx, -⟩
      · rw [hx] at h; cases h
      · rw [hx] at h; cases h
      · rw [hx] at h
        injection h with h _
        injection h with h
        subst h
        injection hm with hm
        subst hm
        refine ⟨p, peer, R.hpeer, shows_receiver L peer _ (castTx_WF hout).2.2.2, fun _ => sealMsg_head _ _ _, fun h => ?_⟩
        rw [hrx] at h; cases h
  · rw [hh] at h
    rcases msgRespHello_cases C s e tx now (r .shake) with ⟨x, hx⟩ | ⟨out', p, c, ic, peer, hs, hc, R⟩
    · rw [hx] at h; cases h
    · rcases R.result with ⟨hx, -⟩ | ⟨hx, -⟩ | ⟨hx, -⟩
      · rw [hx] at h; cases h
      · rw [hx] at h; cases h
      · rw [hx] at h
        injection h with h _
        injection h with h
        subst h
        injection hm with hm
        subst hm
        refine ⟨p, peer, R.hpeer, shows_receiver L { peer with session := _, handshake := _ } _ (castTx_WF hc).2.2.2, fun h => ?_, fun _ => ⟨sealMsg_head _ _ _, rfl⟩⟩
        rw [hrx] at h; cases h
  all_goals (rw [hrx] at ht; rcases ht with ht | ht <;> cases ht)

/-- The seals of a concrete handshake: those of InitHello and InitConf fit the key of `B` and not that of `A`, that of RespHello the key of `A` and not that of `B`. -/
example : SealFits Toy.crypto .shake (Ex.B0 .v03).spkm (Ex.m1 .v03) ∧ ¬ SealFits Toy.crypto .shake (Ex.A0 .v03).spkm (Ex.m1 .v03) ∧
    SealFits Toy.crypto .shake (Ex.A0 .v03).spkm (Ex.m2 .v03) ∧ ¬ SealFits Toy.crypto .shake (Ex.B0 .v03).spkm (Ex.m2 .v03) ∧
    SealFits Toy.crypto .shake (Ex.B0 .v03).spkm (Ex.m3 .v03) ∧ ¬ SealFits Toy.crypto .shake (Ex.A0 .v03).spkm (Ex.m3 .v03) := by
  unfold SealFits
  decide +kernel

end Verif
