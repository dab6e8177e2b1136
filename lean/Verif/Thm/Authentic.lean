import Verif.Thm.Retransmit
/-
C21, C22: what forged EmptyData and CookieReply messages can do.
-/
namespace Verif
open HashDomain Server

section
variable {C : Crypto}

theorem handleMsg_emptyData {s : Server} {rx tx : Bytes} {now : Time} {r : HashChoice → Rnd} (ht : rx.head? = some 0x84) :
    (∃ x, s.handleMsg C rx tx now r = (.error x, s)) ∨
    (∃ e, Env.decode EmptyData.size rx = some e ∧ s.handleMsg C rx tx now r = ((s.handleRespConf C e).1.map (fun _ => ⟨none, none⟩), (s.handleRespConf C e).2)) := by
  rcases handleMsg_dispatch C s rx tx now r with ⟨x, hx, -⟩ | ⟨t, bs, out, hrx, hout, hd⟩
  · exact Or.inl ⟨x, hx⟩
  have hty : ∀ t' : MsgType, t = t' → t'.toU8 = 0x84 := by
    rintro t' rfl
    rw [hrx] at ht
    exact Option.some.inj ht
  rcases hd with ⟨e, -⟩ | ⟨e, -⟩ | ⟨e, -⟩ | ⟨rfl, e, he, hh⟩ | ⟨e, -⟩
  · exact absurd (hty _ e) (by decide)
  · exact absurd (hty _ e) (by decide)
  · exact absurd (hty _ e) (by decide)
  · exact Or.inr ⟨e, he, hh⟩
  · exact absurd (hty _ e) (by decide)

theorem handleMsg_cookieReply {s : Server} {rx tx : Bytes} {now : Time} {r : HashChoice → Rnd} (ht : rx.head? = some 0x86) :
    (∃ x, s.handleMsg C rx tx now r = (.error x, s)) ∨
    (∃ cr, CookieReply.decode C rx = some cr ∧ s.handleMsg C rx tx now r = ((s.handleCookieReply C cr now).1.map (fun _ => ⟨none, none⟩), (s.handleCookieReply C cr now).2)) := by
  rcases handleMsg_dispatch C s rx tx now r with ⟨x, hx, -⟩ | ⟨t, bs, out, hrx, hout, hd⟩
  · exact Or.inl ⟨x, hx⟩
  have hty : ∀ t' : MsgType, t = t' → t'.toU8 = 0x86 := by
    rintro t' rfl
    rw [hrx] at ht
    exact Option.some.inj ht
  rcases hd with ⟨e, -⟩ | ⟨e, -⟩ | ⟨e, -⟩ | ⟨e, -⟩ | ⟨rfl, cr, he, hh⟩
  · exact absurd (hty _ e) (by decide)
  · exact absurd (hty _ e) (by decide)
  · exact absurd (hty _ e) (by decide)
  · exact absurd (hty _ e) (by decide)
  · exact Or.inr ⟨cr, he, hh⟩

/-- the counter a message of type EmptyData carries -/
def emptyDataCtr (rx : Bytes) : Nat := leNat ((rx.drop 8).take 8)

theorem emptyDataCtr_eq {rx : Bytes} {e : Env} (h : Env.decode EmptyData.size rx = some e) :
    leNat (EmptyData.decode e.payload).ctr = emptyDataCtr rx := by
  unfold Env.decode at h
  split at h
  · cases h
    unfold emptyDataCtr EmptyData.decode Env.view
    simp only
    rw [List.drop_take, List.drop_drop, List.take_take]
    rfl
  · cases h

theorem handleMsg_emptyData_eq {rx tx bs : Bytes} {out e : Env} (hrx : rx = MsgType.emptyData.toU8 :: bs) (hout : castTx (RespHello.size C) tx = some out)
    (he : Env.decode EmptyData.size rx = some e) (s : Server) (now : Time) (r : HashChoice → Rnd) :
    s.handleMsg C rx tx now r = ((s.handleRespConf C e).1.map (fun _ => ⟨none, none⟩), (s.handleRespConf C e).2) := by
  subst hrx
  unfold handleMsg
  simp only [(MsgType.ofU8_eq_some_iff _ MsgType.emptyData).mpr rfl, hout, he]
  obtain ⟨x, hx⟩ : ∃ x, s.handleRespConf C e = x := ⟨_, rfl⟩
  rw [hx]
  obtain ⟨a, b⟩ := x
  cases a <;> rfl

theorem handleRespConf_ok_of {s : Server} {e : Env} {p : Nat} {peer : Peer} {ses : Session} (hl : s.lookupHandshake (EmptyData.decode e.payload).sid = some p)
    (hp : s.peers[p]? = some peer) (hses : peer.session = some ses) (hn : peer.handshake.map (·.next) = some .respConf)
    (hck : s.checkSeal C peer.version.hash e = true) (hct : ses.txnt ≤ leNat (EmptyData.decode e.payload).ctr)
    (hd : (C.aeadDec ses.txkt (txNonce (EmptyData.decode e.payload).ctr) [] (EmptyData.decode e.payload).auth).isSome) :
    (s.handleRespConf C e).1 = .ok p := by
  rcases handleRespConf_cases C s e with ⟨x, hx⟩ | ⟨p', peer', ses', hl', hp', hses', -, -, -, hres⟩
  · exfalso
    unfold handleRespConf at hx
    simp only [hl, hp, hck, hn, hses] at hx
    rw [if_neg (by simp), if_neg (by simp), if_neg (by omega)] at hx
    cases hd' : C.aeadDec ses.txkt (txNonce (EmptyData.decode e.payload).ctr) [] (EmptyData.decode e.payload).auth with
    | none => rw [hd'] at hd; cases hd
    | some y => rw [hd'] at hx; cases hx
  · rw [hl] at hl'; cases hl'
    rw [hp] at hp'; cases hp'
    rw [hses] at hses'; cases hses'
    rcases hres with ⟨-, h⟩ | ⟨h, -⟩
    · rw [h] at hd; cases hd
    · rw [h]

/-- **C21**, the part of "a forged EmptyData does not make the server reject the genuine one" that holds:
an EmptyData that is rejected and carries a counter that is not larger than that of the genuine one does no
harm: if the genuine one would have been accepted before, then it is accepted afterwards. (With a larger
counter it is not: `forged_emptyData_blocks_genuine`.) -/
theorem forged_emptyData_harmless_partial (s : Server) (rx tx : Bytes) (now : Time) (r : HashChoice → Rnd) (ht : rx.head? = some 0x84) (x : Err)
    (hrej : (s.handleMsg C rx tx now r).1 = .error x) (gx tx' : Bytes) (now' : Time) (r' : HashChoice → Rnd) (hg : gx.head? = some 0x84)
    (hctr : emptyDataCtr rx ≤ emptyDataCtr gx) (hok : (s.handleMsg C gx tx' now' r').1 = .ok ⟨none, none⟩) :
    ((s.handleMsg C rx tx now r).2.handleMsg C gx tx' now' r').1 = .ok ⟨none, none⟩ := by
  rcases handleMsg_emptyData (C := C) (s := s) (tx := tx) (now := now) (r := r) ht with ⟨y, hy⟩ | ⟨e, he, hh⟩
  · rw [hy]; exact hok
  rcases handleRespConf_cases C s e with ⟨y, hy⟩ | ⟨p, peer, ses, hl, hp, hses, hn, hck, hct, hres⟩
  · rw [hh, hy]; exact hok
  rcases hres with ⟨h2, -⟩ | ⟨h2, -⟩
  swap
  · rw [hh, h2] at hrej; cases hrej
  rw [hh, h2]
  rw [← emptyDataCtr_eq he] at hctr
  simp only
  rcases handleMsg_dispatch C s gx tx' now' r' with ⟨y, hy, -⟩ | ⟨t, bs, out, hrx, hout, hd⟩
  · rw [hy] at hok; cases hok
  have hty : ∀ t' : MsgType, t = t' → t'.toU8 = 0x84 := by
    rintro t' rfl
    rw [hrx] at hg
    exact Option.some.inj hg
  rcases hd with ⟨e, -⟩ | ⟨e, -⟩ | ⟨e, -⟩ | ⟨rfl, g, hge, hgh⟩ | ⟨e, -⟩
  · exact absurd (hty _ e) (by decide)
  · exact absurd (hty _ e) (by decide)
  · exact absurd (hty _ e) (by decide)
  swap
  · exact absurd (hty _ e) (by decide)
  rw [handleMsg_emptyData_eq hrx hout hge] at hok ⊢
  rw [← emptyDataCtr_eq hge] at hctr
  rcases handleRespConf_cases C s g with ⟨y, hy⟩ | ⟨p2, peer2, ses2, hl2, hp2, hses2, hn2, hck2, hct2, hres2⟩
  · rw [hy] at hok; cases hok
  rcases hres2 with ⟨h3, -⟩ | ⟨-, hdec⟩
  · rw [h3] at hok; cases hok
  have hlk : ∀ (f : Peer → Peer), (∀ q, (f q).handshake = q.handshake) → (s.modPeer p f).lookupHandshake (EmptyData.decode g.payload).sid = some p2 := by
    intro f hf
    have hhs : ∀ i, (s.modPeer p f).handshake i = s.handshake i := by
      intro i
      unfold handshake
      rw [modPeer_get]
      by_cases hi : i = p
      · rw [if_pos hi]
        cases s.peers[i]? with
        | none => rfl
        | some q => exact hf q
      · rw [if_neg hi]
    unfold lookupHandshake at hl2 ⊢
    simp only [hhs]
    exact hl2
  have hl3 := hlk (fun q => { q with session := some { ses with txnt := leNat (EmptyData.decode e.payload).ctr } }) (fun _ => rfl)
  have hfin : ∀ ses3 : Session, ses3.txkt = ses2.txkt → ses3.txnt ≤ leNat (EmptyData.decode g.payload).ctr →
      ((s.modPeer p (fun q => { q with session := some { ses with txnt := leNat (EmptyData.decode e.payload).ctr } })).peers[p2]? = some { peer2 with session := some ses3 }) →
      (((s.modPeer p (fun q => { q with session := some { ses with txnt := leNat (EmptyData.decode e.payload).ctr } })).handleRespConf C g).1.map (fun _ => (⟨none, none⟩ : MsgResult))) = .ok ⟨none, none⟩ := by
    intro ses3 e1 e2 e3
    rw [handleRespConf_ok_of hl3 e3 rfl hn2 hck2 e2 (by rw [e1]; exact hdec)]
    rfl
  by_cases hpp : p2 = p
  · subst hpp
    rw [hp] at hp2; cases hp2
    rw [hses] at hses2; cases hses2
    refine hfin { ses with txnt := leNat (EmptyData.decode e.payload).ctr } rfl hctr ?_
    rw [modPeer_get, if_pos rfl, hp]; rfl
  · refine hfin ses2 rfl hct2 ?_
    rw [modPeer_get_ne _ _ hpp, hp2, ← hses2]

/-- **C21 is false of the code**: there is a reachable state in which an EmptyData forged by an outsider is
rejected, but makes the server reject the genuine EmptyData, which it would have accepted. -/
theorem forged_emptyData_blocks_genuine : ∃ (s : Server) (rx gx tx : Bytes) (now : Time) (r : HashChoice → Rnd), Reachable Toy.crypto s ∧
    (s.handleMsg Toy.crypto gx tx now r).1 = .ok ⟨none, none⟩ ∧
    (∃ x, (s.handleMsg Toy.crypto rx tx now r).1 = .error x) ∧
    (∃ x, ((s.handleMsg Toy.crypto rx tx now r).2.handleMsg Toy.crypto gx tx now r).1 = .error x) := by
  refine ⟨Ex.A2 .v03, Ex.forgedEmptyData, Ex.m4 .v03, Ex.buf, 4, fun _ => Ex.rnd 50, Ex.A2_reach _, ?_, ⟨.decrypt, ?_⟩, ⟨.stale, ?_⟩⟩
  all_goals decide +kernel

/-! ### C22 -/

/-- **C22**, the part that holds: a CookieReply, whatever its bytes, either changes no peer at all, or belongs
to a handshake in progress with one peer, of which it changes nothing but the stored cookie (its value and
its age) — and if it is accepted then it decrypts under the key of that peer, with the MAC of the message last
sent as additional data, the cookie stored is the decrypted one, and that message is due for retransmission.
(A rejected one also overwrites the stored cookie: `forged_cookie_overwrites`.) -/
theorem cookieReply_effect_partial (s : Server) (rx tx : Bytes) (now : Time) (r : HashChoice → Rnd) (ht : rx.head? = some 0x86) :
    (s.handleMsg C rx tx now r).2 = s ∧ (∃ x, (s.handleMsg C rx tx now r).1 = .error x) ∨
    (∃ (p : Nat) (q : Peer) (h : IniHs) (cr : CookieReply) (mac : Bytes), s.peers[p]? = some q ∧ q.handshake = some h ∧
      CookieReply.decode C rx = some cr ∧ lastMac C h = .ok mac ∧
      (∀ i : Nat, i ≠ p → (s.handleMsg C rx tx now r).2.peers[i]? = s.peers[i]?) ∧
      ((∃ v, C.xOpen (cookieKey C q.spkt) mac cr.cookieEncrypted = some v ∧ (s.handleMsg C rx tx now r).1 = .ok ⟨none, none⟩ ∧
          (s.handleMsg C rx tx now r).2.peers[p]? = some { q with handshake := some { h with
            cookieValue := { createdAt := now, value := v }, txRetryAt := now, txCount := h.txCount + 1 } }) ∨
       (C.xOpen (cookieKey C q.spkt) mac cr.cookieEncrypted = none ∧ (∃ x, (s.handleMsg C rx tx now r).1 = .error x) ∧
          ∃ c, (s.handleMsg C rx tx now r).2.peers[p]? = some { q with handshake := some { h with cookieValue := c } }))) := by
  rcases handleMsg_cookieReply (C := C) (s := s) (tx := tx) (now := now) (r := r) ht with ⟨y, hy⟩ | ⟨cr, he, hh⟩
  · rw [hy]; exact Or.inl ⟨rfl, _, rfl⟩
  rcases handleCookieReply_cases C s cr now with ⟨x, hx⟩ | ⟨p, peer, hs, mac, hl, hp, hhs, hm, hres⟩
  · rw [hh, hx]; exact Or.inl ⟨rfl, x, rfl⟩
  right
  refine ⟨p, peer, hs, cr, mac, hp, hhs, he, hm, ?_⟩
  rcases hres with ⟨hd, h1⟩ | ⟨v, hd, h1⟩
  · rw [hh, h1]
    refine ⟨fun i hi => by simp only [modHs_get, if_neg hi], Or.inr ⟨hd, ⟨_, rfl⟩, ?_⟩⟩
    simp only [modHs_get, if_pos, hp, hhs, Option.map_some]
    exact ⟨_, rfl⟩
  · rw [hh, h1]
    refine ⟨fun i hi => by simp only [modHs_get, if_neg hi], Or.inl ⟨v, hd, rfl, ?_⟩⟩
    simp only [modHs_get, if_pos, hp, hhs, Option.map_some]

/-- **C22 is false of the code**: there is a reachable state in which a CookieReply forged by an outsider is
rejected but overwrites the stored cookie. -/
theorem forged_cookie_overwrites : ∃ (s : Server) (rx tx : Bytes) (now : Time) (r : HashChoice → Rnd), Reachable Toy.crypto s ∧ rx.head? = some 0x86 ∧
    (∃ x, (s.handleMsg Toy.crypto rx tx now r).1 = .error x) ∧
    (s.handleMsg Toy.crypto rx tx now r).2.peers.map (·.handshake.map (·.cookieValue)) ≠ s.peers.map (·.handshake.map (·.cookieValue)) := by
  refine ⟨Ex.A1 .v03, Ex.forgedCookie, Ex.buf, 2, fun _ => Ex.rnd 30, Ex.A1_reach _, ?_, ⟨.decrypt, ?_⟩, ?_⟩
  all_goals decide +kernel

end
end Verif
