import Verif.Thm.Rekey
/-
C20: when handshake messages are retransmitted.

Times are in ticks of 0.1 ms.
-/
namespace Verif
open HashDomain Server

variable {C : Crypto}

/-- **Specification**: nominal delay before the next retransmission of a message that was sent `n` + 1 times:
0.5 s, doubled each time, at most 10 s. -/
def nominalDelay (n : Nat) : Nat := min (5000 * 2 ^ n) 100000

/-- **Specification**: a time at least half and at most the whole nominal delay after `now` -/
def Scheduled (now : Time) (n : Nat) (d : Time) : Prop :=
  now + ((nominalDelay n / 2 : Nat) : Int) ≤ d ∧ d ≤ now + (nominalDelay n : Int)

theorem retransmitBase_eq (n : Nat) : retransmitBase n = nominalDelay n := by
  unfold retransmitBase nominalDelay
  by_cases h : n ≤ 4
  · rw [if_pos h]
    have : n = 0 ∨ n = 1 ∨ n = 2 ∨ n = 3 ∨ n = 4 := by omega
    rcases this with rfl | rfl | rfl | rfl | rfl <;> rfl
  · rw [if_neg h]
    have : 2 ^ 5 ≤ 2 ^ n := Nat.pow_le_pow_right (by decide) (by omega)
    have h5 : (2 : Nat) ^ 5 = 32 := by decide
    omega

theorem retransmitBase_even (n : Nat) : 2 ∣ retransmitBase n := by
  unfold retransmitBase
  split
  · exact Dvd.dvd.mul_right (by decide) _
  · decide

theorem retransmitDelay_bounds (n jit : Nat) (hj : jit < 2 ^ 53) :
    nominalDelay n / 2 ≤ retransmitDelay n jit ∧ retransmitDelay n jit ≤ nominalDelay n := by
  unfold retransmitDelay
  rw [retransmitBase_eq]
  have hm : nominalDelay n / 2 * jit / 2 ^ 53 ≤ nominalDelay n / 2 := by
    apply Nat.div_le_of_le_mul
    rw [Nat.mul_comm]
    exact Nat.mul_le_mul_right _ (by omega)
  have h2 := retransmitBase_even n
  rw [retransmitBase_eq] at h2
  omega

theorem regRetransmit_scheduled (now : Time) (jit : Nat) (hj : jit < 2 ^ 53) (h : IniHs) :
    Scheduled now h.txCount (regRetransmit now jit h).txRetryAt := by
  obtain ⟨h1, h2⟩ := retransmitDelay_bounds h.txCount jit hj
  have a : ∀ n : Int, ∀ x y z : Nat, x ≤ y → y ≤ z → n + (x : Int) ≤ n + (y : Int) ∧ n + (y : Int) ≤ n + (z : Int) := by intros; omega
  exact a _ _ _ _ h1 h2

/-! ### How received messages move the retransmission timer -/

/-- the handshake message waiting for an answer and its timer are the same -/
def TxSame (h h' : IniHs) : Prop := h'.txRetryAt = h.txRetryAt ∧ h'.txCount = h.txCount ∧ h'.txLen = h.txLen ∧ h'.txBuf = h.txBuf

/-- what one received message of type `t` can do to a handshake in progress -/
inductive TxMove (t : UInt8) (rep : Option Bytes) (now : Time) (jit : Nat) (h h' : IniHs) : Prop
  /-- nothing -/
  | same : TxSame h h' → TxMove t rep now jit h h'
  /-- a RespHello was accepted: the InitConf was sent -/
  | respHello (m : Bytes) : t = 0x82 → rep = some m → h'.txLen = m.length → h'.txBuf = cpyMin m (h.txBuf) → h'.txCount = 1 →
      (jit < 2 ^ 53 → Scheduled now 0 h'.txRetryAt) → TxMove t rep now jit h h'
  /-- a CookieReply was accepted: retransmit at once -/
  | cookie : t = 0x86 → h'.txRetryAt = now → h.txCount ≤ h'.txCount → h'.txLen = h.txLen → h'.txBuf = h.txBuf → TxMove t rep now jit h h'

/-- the response in the result of a call that processes a message -/
def respOf : Except Err MsgResult → Option Bytes
  | .ok r => r.resp
  | .error _ => none

theorem cpyMin_cpyMin (m b : Bytes) : cpyMin m (cpyMin m b) = cpyMin m b := by
  unfold cpyMin
  simp only [List.length_append, List.length_take, List.length_drop, List.drop_append]
  have h1 : min m.length b.length ≤ m.length := Nat.min_le_left _ _
  congr 1
  · congr 1; omega
  · rw [List.drop_of_length_le (by simp), List.nil_append, List.drop_drop]
    by_cases h : m.length ≤ b.length
    · congr 1; omega
    · rw [List.drop_of_length_le (by omega), List.drop_of_length_le (by omega)]

def HsAll (R : IniHs → IniHs → Prop) (s s' : Server) : Prop :=
  ∀ (p : Nat) (q q' : Peer), s.peers[p]? = some q → s'.peers[p]? = some q' → ∀ h', q'.handshake = some h' →
    ∃ h, q.handshake = some h ∧ R h h'

theorem TxMove.trans {t : UInt8} {rep : Option Bytes} {now : Time} {jit : Nat} {a b c : IniHs} (h : TxMove t rep now jit a b) (g : TxMove t rep now jit b c) : TxMove t rep now jit a c := by
  cases g with
  | same g =>
    obtain ⟨g1, g2, g3, g4⟩ := g
    cases h with
    | same h => obtain ⟨h1, h2, h3, h4⟩ := h; exact .same ⟨g1.trans h1, g2.trans h2, g3.trans h3, g4.trans h4⟩
    | respHello m e h1 h2 h3 h4 h5 => exact .respHello m e h1 (g3.trans h2) (g4.trans h3) (g2.trans h4) (g1 ▸ h5)
    | cookie e h1 h2 h3 h4 => exact .cookie e (g1.trans h1) (g2 ▸ h2) (g3.trans h3) (g4.trans h4)
  | respHello m e g1 g2 g3 g4 g5 =>
    cases h with
    | same h => exact .respHello m e g1 g2 (h.2.2.2 ▸ g3) g4 g5
    | respHello m' _ h1 _ h3 =>
      rw [h1] at g1; cases g1
      exact .respHello m e h1 g2 (by rw [g3, h3, cpyMin_cpyMin]) g4 g5
    | cookie e' => rw [e] at e'; cases e'
  | cookie e g1 g2 g3 g4 =>
    cases h with
    | same h => obtain ⟨h1, h2, h3, h4⟩ := h; exact .cookie e g1 (h2 ▸ g2) (g3.trans h3) (g4.trans h4)
    | respHello _ e' => rw [e] at e'; cases e'
    | cookie e' h1 h2 h3 h4 => exact .cookie e g1 (Nat.le_trans h2 g2) (g3.trans h3) (g4.trans h4)

theorem TxMove.refl (t : UInt8) (rep : Option Bytes) (now : Time) (jit : Nat) (h : IniHs) : TxMove t rep now jit h h := .same ⟨rfl, rfl, rfl, rfl⟩

section
variable {t : UInt8} {rep : Option Bytes} {now : Time} {jit : Nat}

theorem HsAll.same {s s' : Server} (h : s'.peers = s.peers) : HsAll (TxMove t rep now jit) s s' := by
  intro p q q' hq hq' h' hh
  rw [h, hq] at hq'; cases hq'
  exact ⟨h', hh, .refl _ _ _ _ _⟩

theorem HsAll.trans {a b c : Server} (hl : b.peers.length = a.peers.length) (h : HsAll (TxMove t rep now jit) a b) (g : HsAll (TxMove t rep now jit) b c) :
    HsAll (TxMove t rep now jit) a c := by
  intro p q q' hq hq' h' hh
  have hb : p < b.peers.length := by rw [hl]; exact (List.getElem?_eq_some_iff.mp hq).1
  obtain ⟨h1, hh1, r1⟩ := g p _ q' (List.getElem?_eq_getElem hb) hq' h' hh
  obtain ⟨h0, hh0, r0⟩ := h p q _ hq (List.getElem?_eq_getElem hb) h1 hh1
  exact ⟨h0, hh0, r0.trans r1⟩

theorem HsAll.upd {s s' : Server} {p : Nat} {f : Peer → Peer} (h : Upd s s' p f)
    (hf : ∀ q h', (f q).handshake = some h' → ∃ h, q.handshake = some h ∧ TxMove t rep now jit h h') : HsAll (TxMove t rep now jit) s s' := by
  intro i q q' hq hq' h' hh
  have := h i
  by_cases hi : i = p
  · rw [if_pos hi, hq, hq'] at this
    cases this
    exact hf q h' hh
  · rw [if_neg hi, hq, hq'] at this; cases this
    exact ⟨h', hh, .refl _ _ _ _ _⟩

theorem HsAll.hs {s s' : Server} {p : Nat} {f : Peer → Peer} (h : Upd s s' p f) (g : IniHs → IniHs) (hf : ∀ q, (f q).handshake = q.handshake.map g)
    (hm : ∀ h, TxMove t rep now jit h (g h)) : HsAll (TxMove t rep now jit) s s' := by
  refine .upd h (fun q h' hh => ?_)
  rw [hf, Option.map_eq_some_iff] at hh
  obtain ⟨h, hh, rfl⟩ := hh
  exact ⟨h, hh, hm h⟩

theorem upd_length {s s' : Server} {p : Nat} {f : Peer → Peer} (h : Upd s s' p f) : s'.peers.length = s.peers.length := by
  apply Nat.le_antisymm
  · by_contra hlt
    have := h s.peers.length
    rw [List.getElem?_eq_getElem (by omega : s.peers.length < s'.peers.length), List.getElem?_eq_none (Nat.le_refl _)] at this
    split at this <;> cases this
  · by_contra hlt
    have := h s'.peers.length
    rw [List.getElem?_eq_none (Nat.le_refl _), List.getElem?_eq_getElem (by omega : s'.peers.length < s.peers.length)] at this
    split at this <;> cases this

theorem handleMsg_tx (s : Server) (rx tx : Bytes) (now : Time) (r : HashChoice → Rnd) :
    HsAll (TxMove (rx.headD 0) (respOf (s.handleMsg C rx tx now r).1) now (r .shake).jit) s (s.handleMsg C rx tx now r).2 := by
  rcases handleMsg_dispatch C s rx tx now r with ⟨x, hx, -⟩ | ⟨t, bs, out, hrx, hout, hd⟩
  · rw [hx]; exact .same rfl
  have hnone : ∀ {t : UInt8} {rep : Option Bytes} {jit : Nat} (q : Peer) (h' : IniHs), q.handshake = some h' → ∃ h, q.handshake = some h ∧ TxMove t rep now jit h h' :=
    fun q h' hh => ⟨h', hh, .refl _ _ _ _ _⟩
  rcases hd with ⟨rfl, e, he, hh⟩ | ⟨rfl, e, he, hh⟩ | ⟨rfl, e, he, hh⟩ | ⟨rfl, e, he, hh⟩ | ⟨rfl, cr, he, hh⟩
  · rw [hh]
    rcases msgInitHello_cases C s e out now r with ⟨y, hx⟩ | ⟨h', q, c, peer, rh, R⟩
    · rw [hx]; exact .same rfl
    · rcases R.result with ⟨h1, -⟩ | ⟨h1, -⟩ | ⟨h1, -⟩ <;> (rw [h1]; exact .same (issued_peers _ _ _))
  · rw [hh]
    rcases msgRespHello_cases C s e tx now (r .shake) with ⟨y, hx⟩ | ⟨out', p, c, ic, peer, hs, hc, R⟩
    · rw [hx]; exact .same rfl
    · have hacc : ∀ rep ses, HsAll (TxMove (rx.headD 0) rep now (r .shake).jit) s (s.accepted p ses) := fun _ ses =>
        .hs (accepted_get s p ses) (fun hs => { hs with core := hs.core.erase, next := .respConf }) (fun _ => rfl) (fun _ => .same ⟨rfl, rfl, rfl, rfl⟩)
      rcases R.result with ⟨h1, -⟩ | ⟨h1, -⟩ | ⟨h1, -⟩
      · rw [h1]; exact .upd (sessTake_get s p) (fun q h' hh => hnone q h' hh)
      · rw [h1]; exact hacc _ _
      · rw [h1]
        refine .trans (upd_length (accepted_get s p _)) (hacc _ _) (.hs (modHs_get _ p _) _ (fun _ => rfl) (fun h => ?_))
        exact .respHello _ (by rw [hrx]; rfl) rfl rfl rfl rfl (fun hj => regRetransmit_scheduled now _ hj { h with txBuf := _, txCount := 0, txLen := _ })
  · rw [hh]
    rcases msgInitConf_cases C s e tx now with ⟨hx, -⟩ | ⟨out', hc, ⟨q, hq, ⟨x, hx, -⟩ | ⟨peer, k, -, -, -, hx⟩⟩ | ⟨hn, hf⟩⟩
    · rw [hx]; exact .same rfl
    · rw [hx]; exact .same rfl
    · rw [hx]; exact .same rfl
    · rw [hf]
      have hatt : ∀ {h' s0}, AttemptState C s (InitConf.decode e.payload) h' s0 → ∀ rep, HsAll (TxMove (rx.headD 0) rep now (r .shake).jit) s s0 ∧
          s0.peers.length = s.peers.length := by
        rintro h' s0 (rfl | ⟨-, p0, no0, c0, hv, rfl, -⟩)
        · exact fun _ => ⟨.same rfl, rfl⟩
        · exact fun _ => ⟨.upd (burnt_get s p0 no0) (fun q h' hh => hnone q h' hh), upd_length (burnt_get s p0 no0)⟩
      rcases msgInitConfFresh_cases C s e out' now with ⟨h', s0, x, hA, hx, -⟩ | ⟨h', s0, q, no, c, peer0, hA, R⟩
      · rw [hx]; exact (hatt hA _).1
      · refine HsAll.trans (hatt hA none).2 (hatt hA _).1 ?_
        have hconf : ∀ rep ses, HsAll (TxMove (rx.headD 0) rep now (r .shake).jit) s0 (s0.confirmed q no ses) := fun _ ses =>
          .upd (confirmed_get s0 q no ses) (fun q h' hh => nomatch hh)
        rcases R.result with ⟨⟨x, -, h1⟩, -⟩ | ⟨h1, -⟩ | ⟨h1, -⟩ | ⟨h1, -⟩ | ⟨s2, h1, hk, -⟩
        · rw [h1]; exact .upd (burnt_get s0 q no) (fun q h' hh => hnone q h' hh)
        · rw [h1]; exact hconf _ _
        · rw [h1]; exact hconf _ _
        · rw [h1]; exact hconf _ _
        · rw [h1]
          exact .trans (upd_length (confirmed_get s0 q no _)) (hconf _ _) (.upd (knownInsert_upd hk) (fun q h' hh => hnone q h' hh))
  · rw [hh]
    rcases handleRespConf_cases C s e with ⟨x, hx⟩ | ⟨p, peer, ses, hl, hp, hses, hn, hck, hct, hres⟩
    · rw [hx]; exact .same rfl
    · have hm := modPeer_get s p (fun q => { q with session := some { ses with txnt := leNat (EmptyData.decode e.payload).ctr } })
      have h1 : ∀ rep, HsAll (TxMove (rx.headD 0) rep now (r .shake).jit) s (s.modPeer p (fun q => { q with session := some { ses with txnt := leNat (EmptyData.decode e.payload).ctr } })) :=
        fun _ => .upd hm (fun q h' hh => hnone q h' hh)
      rcases hres with ⟨h2, -⟩ | ⟨h2, -⟩
      · rw [h2]; exact h1 _
      · rw [h2]; exact .trans (modPeer_length _ _ _) (h1 _) (.upd (hsTake_get _ p) (fun q h' hh => nomatch hh))
  · rw [hh]
    rcases handleCookieReply_cases C s cr now with ⟨x, hx⟩ | ⟨p, peer, hs, mac, hl, hp, hhs, hm, hres⟩
    · rw [hx]; exact .same rfl
    · rcases hres with ⟨-, h1⟩ | ⟨v, -, h1⟩
      · rw [h1]; exact .hs (modHs_get _ p _) _ (fun _ => rfl) (fun _ => .same ⟨rfl, rfl, rfl, rfl⟩)
      · rw [h1]
        exact .hs (modHs_get _ p _) _ (fun _ => rfl) (fun _ => .cookie (by rw [hrx]; rfl) rfl (Nat.le_succ _) rfl rfl)

theorem underLoad_tx (s : Server) (rx tx host : Bytes) (now : Time) (r : HashChoice → Rnd) :
    HsAll (TxMove (rx.headD 0) (respOf (s.handleMsgUnderLoad C rx tx host now r).1) now (r .shake).jit) s (s.handleMsgUnderLoad C rx tx host now r).2 := by
  rcases underLoad_cases C s rx tx host now r with ⟨x, -, hx, -⟩ | ⟨-, hx⟩ | ⟨h81, i, ids, s1, -, hs1, ⟨-, hx⟩ |
    ⟨e, -, ⟨-, hx⟩ | ⟨-, ⟨-, hx⟩ | ⟨-, hx⟩⟩⟩⟩
  · rw [hx]; exact .same rfl
  · rw [hx]; exact handleMsg_tx s rx tx now r
  · rw [hx]; exact .same (by rw [hs1])
  · rw [hx]
    exact HsAll.trans (by rw [hs1]) (.same (by rw [hs1])) (handleMsg_tx s1 rx tx now r)
  · rw [hx]; exact .same (by rw [hs1])
  · rw [hx]; exact .same (by rw [hs1])


/-! ### C20 -/

/-- `o` is a call of `poll` that asks to retransmit to peer `p` -/
def Server.Op.Retransmits (s : Server) (p : Nat) : Op → Prop
  | .poll now r => ∃ s', s.poll now r = some (.sendRetransmission p, s')
  | _ => False

/-- `o` is a successful call of `initiate_handshake` for peer `p`, and `m` is the message to send -/
def Server.Op.Sends (C : Crypto) (s : Server) (p : Nat) (m : Bytes) : Op → Prop
  | .initiate p' now r tx => p' = p ∧ (s.initiate C p now r tx).1 = .ok m
  | _ => False

/-- **Specification**: how the retransmission state of the handshake with peer `p` changes in one call at
time `now`, from `h` (if there was a handshake) to `h'`. -/
inductive Resched (C : Crypto) (s : Server) (o : Op) (p : Nat) (q : Peer) (h' : IniHs) : Prop
  /-- not at all -/
  | same (h : IniHs) : q.handshake = some h → TxSame h h' → Resched C s o p q h'
  /-- the first message of the handshake was sent -/
  | initiated (now : Time) (m : Bytes) : o.time = some now → o.Sends C s p m →
      h'.txCount = 1 → Scheduled now 0 h'.txRetryAt → h'.txLen = m.length → (m.length ≤ 2500 → h'.txBuf.take m.length = m) → Resched C s o p q h'
  /-- the second message of the handshake was sent, in response to a RespHello -/
  | confirmed (now : Time) (h : IniHs) (rx m : Bytes) : o.time = some now → o.received = some rx → rx.head? = some 0x82 →
      respOf (o.result C s) = some m → q.handshake = some h →
      h'.txCount = 1 → Scheduled now 0 h'.txRetryAt → h'.txLen = m.length → (m.length ≤ h.txBuf.length → h'.txBuf.take m.length = m) → Resched C s o p q h'
  /-- a cookie was received: the same message is due again at once -/
  | cookie (now : Time) (h : IniHs) (rx : Bytes) : o.time = some now → o.received = some rx → rx.head? = some 0x86 → q.handshake = some h →
      h'.txRetryAt = now → h.txCount ≤ h'.txCount → h'.txLen = h.txLen → h'.txBuf = h.txBuf → Resched C s o p q h'
  /-- the message was due and is retransmitted: the same message is scheduled again, at the next delay -/
  | retransmitted (now : Time) (h : IniHs) : o.time = some now → o.Retransmits s p → q.handshake = some h →
      now + eventGrace ≤ h.createdAt + secs 180 → h.txRetryAt < now + eventGrace →
      h'.txCount = h.txCount + 1 → Scheduled now h.txCount h'.txRetryAt → h'.txLen = h.txLen → h'.txBuf = h.txBuf → Resched C s o p q h'

theorem cpyMin_take {m b : Bytes} (h : m.length ≤ b.length) : (cpyMin m b).take m.length = m := by
  unfold cpyMin
  rw [List.take_of_length_le h, List.take_left]

theorem headD_of {rx : Bytes} {t : UInt8} (h0 : t ≠ 0) (h : rx.headD 0 = t) : rx.head? = some t := by
  cases rx with
  | nil => exact absurd h.symm h0
  | cons b bs => exact congrArg some h

/-- **C20** (schedule). Whatever call is made, the handshake in progress with a peer afterwards has the
retransmission schedule that the specification allows. -/
theorem retransmission_schedule (s : Server) (o : Op) (hw : o.WF C) {p : Nat} {q q' : Peer} {h' : IniHs} (hq : s.peers[p]? = some q)
    (hq' : (s.step C o).peers[p]? = some q') (hh' : q'.handshake = some h') : Resched C s o p q h' := by
  cases o with
  | addPeer psk pk v osk =>
    have : (s.addPeer C psk pk v osk).2.peers[p]? = some q := by
      unfold addPeer
      simp only
      split
      · exact hq
      · show (s.peers ++ _)[p]? = _
        rw [List.getElem?_append_left (List.getElem?_eq_some_iff.mp hq).1]; exact hq
    rw [show (s.step C (.addPeer psk pk v osk)) = (s.addPeer C psk pk v osk).2 from rfl, this] at hq'
    cases hq'
    exact .same h' hh' ⟨rfl, rfl, rfl, rfl⟩
  | retransmit p' tx =>
    rw [show (s.step C (.retransmit p' tx)) = (s.retransmit C p' tx).2 from rfl, retransmit_state, hq] at hq'
    cases hq'
    exact .same h' hh' ⟨rfl, rfl, rfl, rfl⟩
  | handleMsg rx tx now r =>
    obtain ⟨h, hh, hm⟩ := handleMsg_tx (C := C) s rx tx now r p q q' hq hq' h' hh'
    cases hm with
    | same e => exact .same h hh e
    | respHello m e1 e2 e3 e4 e5 e6 =>
      exact .confirmed now h rx m rfl rfl (headD_of (by decide) e1) e2 hh e5 (e6 (hw .shake).jit) e3 (fun hl => by rw [e4]; exact cpyMin_take hl)
    | cookie e1 e2 e3 e4 e5 => exact .cookie now h rx rfl rfl (headD_of (by decide) e1) hh e2 e3 e4 e5
  | handleMsgUnderLoad rx tx host now r =>
    obtain ⟨h, hh, hm⟩ := underLoad_tx (C := C) s rx tx host now r p q q' hq hq' h' hh'
    cases hm with
    | same e => exact .same h hh e
    | respHello m e1 e2 e3 e4 e5 e6 =>
      exact .confirmed now h rx m rfl rfl (headD_of (by decide) e1) e2 hh e5 (e6 (hw .shake).jit) e3 (fun hl => by rw [e4]; exact cpyMin_take hl)
    | cookie e1 e2 e3 e4 e5 => exact .cookie now h rx rfl rfl (headD_of (by decide) e1) hh e2 e3 e4 e5
  | initiate p' now r tx =>
    rcases initiate_cases C s p' now r tx with ⟨x, hx⟩ | ⟨peer, ih, hs, e, hp, hi, hc, hfree, hres⟩
    · rw [show (s.step C (.initiate p' now r tx)) = (s.initiate C p' now r tx).2 from rfl, hx] at hq'
      rw [hq] at hq'; cases hq'
      exact .same h' hh' ⟨rfl, rfl, rfl, rfl⟩
    · simp only at hres
      rw [show (s.step C (.initiate p' now r tx)) = (s.initiate C p' now r tx).2 from rfl, hres] at hq'
      simp only [modHs_get, hsPut_get] at hq'
      by_cases hpp : p = p'
      · subst hpp
        rw [if_pos rfl, if_pos rfl, hq] at hq'
        cases hq'
        cases hh'
        obtain ⟨-, -, hl, -, -, -, -, -⟩ := initiation_facts hi
        refine .initiated now _ rfl ⟨rfl, by rw [hres]⟩ rfl
          (regRetransmit_scheduled now _ (Rnd.WF.jit hw) { hs with txBuf := _, txCount := 0, txLen := _ }) rfl (fun hm => ?_)
        exact cpyMin_take (by rw [hl]; exact hm)
      · rw [if_neg hpp, if_neg hpp, hq] at hq'
        cases hq'
        exact .same h' hh' ⟨rfl, rfl, rfl, rfl⟩
  | poll now r =>
    cases hp : s.poll now r with
    | none =>
      simp only [step, hp] at hq'
      rw [hq] at hq'; cases hq'
      exact .same h' hh' ⟨rfl, rfl, rfl, rfl⟩
    | some x =>
      obtain ⟨c, s'⟩ := x
      simp only [step, hp] at hq'
      obtain ⟨q1, hq1, heff⟩ := poll_effect hp hq
      rw [hq'] at hq1; cases hq1
      rcases heff.handshake with ⟨-, e | ⟨e, -⟩⟩ | ⟨hc, y, hy, e⟩
      · exact .same h' (e ▸ hh') ⟨rfl, rfl, rfl, rfl⟩
      · rw [e] at hh'; cases hh'
      · rw [e] at hh'; cases hh'
        subst hc
        obtain ⟨⟨p', q1, hq1, hd⟩, -⟩ := (poll_exact hp).1 rfl
        cases hd with
        | sendRetransmission h0 hh0 g1 g2 =>
          rw [hq] at hq1; cases hq1
          rw [hy] at hh0; cases hh0
          exact .retransmitted now y rfl ⟨s', hp⟩ hy g1 g2 rfl (regRetransmit_scheduled now _ hw.2 y) rfl rfl

/-- `o` leaves the retransmission timer of peer `p` alone: it is not a successful initiation, not a
retransmission, and not the receipt of a RespHello or a CookieReply. -/
def Server.Op.Quiet (C : Crypto) (s : Server) (p : Nat) (o : Op) : Prop :=
  ¬ o.Initiates C s p ∧ ¬ o.Retransmits s p ∧ ∀ rx, o.received = some rx → rx.head? ≠ some 0x82 ∧ rx.head? ≠ some 0x86

theorem Server.Op.Sends.initiates {s : Server} {p : Nat} {m : Bytes} {o : Op} (h : o.Sends C s p m) : o.Initiates C s p := by
  cases o with
  | initiate => exact ⟨h.1, m, h.2⟩
  | _ => exact h

theorem step_peer (s : Server) (o : Op) {p : Nat} {q : Peer} (hq : s.peers[p]? = some q) : ∃ q', (s.step C o).peers[p]? = some q' := by
  have k : ∀ a b : Int, a ≤ max a b ∧ b ≤ max a b := by intros; omega
  obtain ⟨T, h1, h2, h3⟩ : ∃ T : Time, (∀ u, o.time = some u → u ≤ T) ∧ (∀ x, q.session = some x → x.createdAt ≤ T) ∧ (∀ h, q.handshake = some h → h.createdAt ≤ T) := by
    refine ⟨max (o.time.getD 0) (max ((q.session.map (·.createdAt)).getD 0) ((q.handshake.map (·.createdAt)).getD 0)), fun u hu => ?_, fun x hx => ?_, fun x hx => ?_⟩
    · rw [hu]; exact (k _ _).1
    · rw [hx]; exact Int.le_trans (k _ _).1 (k _ _).2
    · rw [hx]; exact Int.le_trans (k _ _).2 (k _ _).2
  obtain ⟨q', hq', -⟩ := step_request (C := C) s o T h1 hq ⟨h2, h3⟩
  exact ⟨q', hq'⟩

/-- a quiet run keeps the timer -/
theorem run_quiet (ops : List Op) : ∀ (s : Server), (∀ o ∈ ops, o.WF C) → ∀ {p : Nat} {q : Peer}, s.peers[p]? = some q →
    (∀ pre o post, ops = pre ++ o :: post → o.Quiet C (s.run C pre) p) →
    ∃ q', (s.run C ops).peers[p]? = some q' ∧ ∀ h', q'.handshake = some h' → ∃ h, q.handshake = some h ∧ TxSame h h' := by
  induction ops with
  | nil => intro s _ p q hq _; exact ⟨q, hq, fun h hh => ⟨h, hh, rfl, rfl, rfl, rfl⟩⟩
  | cons o ops ih =>
    intro s hw p q hq hquiet
    obtain ⟨q1, hq1⟩ := step_peer (C := C) s o hq
    obtain ⟨q', hq', hsame⟩ := ih (s.step C o) (fun o' ho' => hw o' (List.mem_cons_of_mem _ ho')) hq1
      (fun pre o' post h => hquiet (o :: pre) o' post (by rw [h]; rfl))
    refine ⟨q', hq', fun h' hh' => ?_⟩
    obtain ⟨h1, hh1, e1, e2, e3, e4⟩ := hsame h' hh'
    obtain ⟨g1, g2, g3⟩ := hquiet [] o ops rfl
    cases retransmission_schedule s o (hw o List.mem_cons_self) hq hq1 hh1 with
    | same h hh e => obtain ⟨f1, f2, f3, f4⟩ := e; exact ⟨h, hh, e1.trans f1, e2.trans f2, e3.trans f3, e4.trans f4⟩
    | initiated _ _ _ hs => exact absurd hs.initiates g1
    | confirmed _ _ rx _ _ hrx ht => exact absurd ht (g3 rx hrx).1
    | cookie _ _ rx _ hrx ht => exact absurd ht (g3 rx hrx).2
    | retransmitted _ _ _ hr => exact absurd hr g2

/-- **C20** (spacing). After `poll` asked for the retransmission of a message that had been sent `n` times
(`n` counts from 1), and as long as nothing else happens to this handshake: `poll` does not ask for the next
retransmission before half the nominal delay has passed (up to the clock granularity of 2.5 ms), and it does
ask once the whole nominal delay has passed, unless the handshake has ended or is 180 s old. -/
theorem retransmissions_spaced (s : Server) (o : Op) (ho : o.WF C) {p : Nat} {q : Peer} (hq : s.peers[p]? = some q) (t : Time) (ht : o.time = some t)
    (hr : o.Retransmits s p) (ops : List Op) (hw : ∀ o ∈ ops, o.WF C) (hquiet : ∀ pre o' post, ops = pre ++ o' :: post → o'.Quiet C ((s.step C o).run C pre) p) :
    ∃ h q', q.handshake = some h ∧ ((s.step C o).run C ops).peers[p]? = some q' ∧
      (∀ now r s', ((s.step C o).run C ops).poll now r = some (.sendRetransmission p, s') →
        t + ((nominalDelay h.txCount / 2 : Nat) : Int) < now + eventGrace) ∧
      (∀ now rs evs s' u, PollRun now rs ((s.step C o).run C ops) evs s' u → t + (nominalDelay h.txCount : Int) ≤ now →
        ∀ h', q'.handshake = some h' → now + eventGrace ≤ h'.createdAt + secs 180 → PollResult.sendRetransmission p ∈ evs) := by
  cases o with
  | poll now r =>
    obtain ⟨s1, hp⟩ := hr
    obtain rfl : now = t := Option.some.inj ht
    have hst : s.step C (.poll now r) = s1 := by simp only [step, hp]
    obtain ⟨q1, hq1, heff⟩ := poll_effect hp hq
    rcases heff.handshake with ⟨hc, -⟩ | ⟨-, h, hh, e⟩
    · exact absurd rfl hc
    rw [hst] at hquiet ⊢
    obtain ⟨q', hq', hsame⟩ := run_quiet ops s1 hw hq1 hquiet
    have hsch := regRetransmit_scheduled now r.jit ho.2 h
    refine ⟨h, q', hh, hq', fun now' r' s' hp' => ?_, fun now' rs evs s' u hrun hle h' hh' hy => ?_⟩
    · obtain ⟨⟨p', q2, hq2, hd⟩, -⟩ := (poll_exact hp').1 rfl
      cases hd with
      | sendRetransmission h0 hh0 g1 g2 =>
        rw [hq'] at hq2; cases hq2
        obtain ⟨h2, hh2, e1, -⟩ := hsame h0 hh0
        rw [e] at hh2; cases hh2
        rw [e1] at g2
        have a : ∀ a b c : Int, a ≤ b → b < c → a < c := by intros; omega
        exact a _ _ _ hsch.1 g2
    · obtain ⟨h2, hh2, e1, -⟩ := hsame h' hh'
      rw [e] at hh2; cases hh2
      rw [(poll_run_exact hrun).2.1]
      refine ⟨p, q', hq', .sendRetransmission h' hh' hy ?_⟩
      rw [e1]
      have a : ∀ a b c : Int, a ≤ b → b ≤ c → a < c + 25 := by intros; omega
      exact a _ _ _ hsch.2 hle
  | _ => exact hr.elim

/-- **C20** (end). When no handshake with a peer is in progress, `poll` never asks for a retransmission to
that peer, whatever happens, until the application successfully initiates a new one. -/
theorem no_handshake_no_retransmission (ops : List Op) : ∀ (s : Server), (∀ o ∈ ops, o.WF C) → ∀ {p : Nat} {q : Peer}, s.peers[p]? = some q →
    q.handshake = none → (∀ pre o post, ops = pre ++ o :: post → ¬ o.Initiates C (s.run C pre) p) →
    ∀ pre o post, ops = pre ++ o :: post → ¬ o.Retransmits (s.run C pre) p := by
  induction ops with
  | nil => intro s _ p q _ _ _ pre o post h; cases pre <;> cases h
  | cons a ops ih =>
    intro s hw p q hq hn hno pre o post h
    cases pre with
    | nil =>
      cases h
      intro hr
      cases a with
      | poll now r =>
        obtain ⟨s', hp⟩ := hr
        obtain ⟨⟨p', q2, hq2, hd⟩, -⟩ := (poll_exact hp).1 rfl
        cases hd with
        | sendRetransmission h0 hh0 g1 g2 =>
          have : q2 = q := by
            have := hq2.symm.trans hq
            exact Option.some.inj this
          rw [this, hn] at hh0; cases hh0
      | _ => exact hr
    | cons b pre =>
      cases h
      obtain ⟨q1, hq1⟩ := step_peer (C := C) s a hq
      refine ih (s.step C a) (fun o' ho' => hw o' (List.mem_cons_of_mem _ ho')) hq1 ?_
        (fun pre' o1 post' h1 => hno (a :: pre') o1 post' (by rw [h1]; rfl)) pre o post rfl
      cases hh1 : q1.handshake with
      | none => rfl
      | some h1 =>
        exfalso
        cases retransmission_schedule s a (hw a List.mem_cons_self) hq hq1 hh1 with
        | same h hh => rw [hn] at hh; cases hh
        | initiated _ _ _ hs => exact hno [] a _ rfl hs.initiates
        | confirmed _ h _ _ _ _ _ _ hh => rw [hn] at hh; cases hh
        | cookie _ h _ _ _ _ hh => rw [hn] at hh; cases hh
        | retransmitted _ h _ _ hh => rw [hn] at hh; cases hh

/-- **C20** (end), **C21**. An EmptyData that is accepted belongs to the handshake whose session id it
carries, is sealed, is no older than the last one accepted, and decrypts under the key the session receives
with; afterwards no handshake with that peer is in progress. An EmptyData that is not accepted leaves every
handshake in progress as it was. -/
theorem emptyData_ends_handshake (s : Server) (rx tx : Bytes) (now : Time) (r : HashChoice → Rnd) (ht : rx.head? = some 0x84) :
    (∀ m, (s.handleMsg C rx tx now r).1 = .ok m →
      ∃ (p : Nat) (q q' : Peer), s.peers[p]? = some q ∧ EmptyDataFor C s rx q false ∧
        (s.handleMsg C rx tx now r).2.peers[p]? = some q' ∧ q'.handshake = none) ∧
    (∀ x, (s.handleMsg C rx tx now r).1 = .error x →
      ∀ i : Nat, ((s.handleMsg C rx tx now r).2.peers[i]?).map (·.handshake) = (s.peers[i]?).map (·.handshake)) := by
  rcases handleMsg_dispatch C s rx tx now r with ⟨x, hx, -⟩ | ⟨t, bs, out, hrx, hout, hd⟩
  · rw [hx]; exact ⟨fun m h => (nomatch h), fun _ _ _ => rfl⟩
  have hty : ∀ t' : MsgType, t = t' → t'.toU8 = 0x84 := by
    rintro t' rfl
    rw [hrx] at ht
    exact Option.some.inj ht
  rcases hd with ⟨e, -⟩ | ⟨e, -⟩ | ⟨e, -⟩ | ⟨rfl, e, he, hh⟩ | ⟨e, -⟩
  · exact absurd (hty _ e) (by decide)
  · exact absurd (hty _ e) (by decide)
  · exact absurd (hty _ e) (by decide)
  · rw [hh]
    rcases handleRespConf_cases C s e with ⟨x, hx⟩ | ⟨p, peer, ses, hl, hp, hses, hn, hck, hct, hres⟩
    · rw [hx]; exact ⟨fun m h => (nomatch h), fun _ _ _ => rfl⟩
    · rcases hres with ⟨h2, -⟩ | ⟨h2, hdec⟩
      · rw [h2]
        refine ⟨fun m h => (nomatch h), fun _ _ i => ?_⟩
        simp only [modPeer_get]
        by_cases hi : i = p
        · rw [if_pos hi]; cases s.peers[i]? <;> rfl
        · rw [if_neg hi]
      · rw [h2]
        refine ⟨fun m _ => ⟨p, peer, { peer with session := some { ses with txnt := leNat (EmptyData.decode e.payload).ctr }, handshake := none }, hp, ⟨ht, ?_⟩, ?_, rfl⟩, fun x h => (nomatch h)⟩
        · cases hhs : peer.handshake with
          | none => rw [hhs] at hn; cases hn
          | some hs =>
            rw [hhs] at hn
            refine ⟨e, hs, ses, he, rfl, Option.some.inj hn, hses, ?_, checkSeal_iff.mp hck, hct, hdec⟩
            unfold lookupHandshake at hl
            split at hl
            · cases hl
            · split at hl
              · rename_i h3
                cases hl
                simpa [handshake, hp, hhs] using h3
              · cases hl
        · simp only [hsTake_get, modPeer_get, if_pos, hp]; rfl
  · exact absurd (hty _ e) (by decide)

/-- **C20** (end). When the responder accepts an InitConf as an exchange with a peer, no handshake with that
peer is in progress any more. -/
theorem initConf_ends_handshake (s : Server) (rx tx : Bytes) (now : Time) (r : HashChoice → Rnd) (ht : rx.head? = some 0x83) (p : Nat) (m : Option Bytes)
    (hok : (s.handleMsg C rx tx now r).1 = .ok ⟨some p, m⟩) :
    ∃ q, (s.handleMsg C rx tx now r).2.peers[p]? = some q ∧ q.handshake = none := by
  rcases handleMsg_exchanged (s' := (s.handleMsg C rx tx now r).2) (Prod.ext hok rfl) with ⟨e', out, c, ic, peer', hs, bs, hty, -⟩ |
    ⟨e', out, h, s0, no, c, peer1, bs, hty, he', hout, hn, hA, hver, hck, R⟩
  · rw [hty] at ht; exact absurd (Option.some.inj ht) (by decide)
  · have hp := R.hpeer
    rcases R.result with ⟨⟨x, -, h1⟩, -⟩ | ⟨h1, -⟩ | ⟨h1, -⟩ | ⟨h1, -⟩ | ⟨s2, h1, hk, -⟩
    · cases h1
    · cases h1
    · cases h1
    · cases h1
    · have hs2 : (s.handleMsg C rx tx now r).2 = s2 := congrArg Prod.snd h1
      rw [hs2]
      have hu := knownInsert_upd hk p
      rw [if_pos rfl, confirmed_get, if_pos rfl, hp] at hu
      exact ⟨_, hu, rfl⟩

/-- **C20** (content). The bytes that `retransmit_handshake` gives are those that were sent first, except
for the cookie at the end of an InitHello: `m` is as long, and equal up to the position of that cookie. -/
theorem retransmitted_content (L : C.Lawful) (s : Server) (p : Nat) (tx m : Bytes) {q : Peer} {h : IniHs} (hq : s.peers[p]? = some q) (hh : q.handshake = some h)
    (hl : h.txLen ≤ tx.length) (hok : (s.retransmit C p tx).1 = .ok m) :
    m.length = h.txLen ∧ m.take (4 + payloadSize C .initHello + 16) = (h.txBuf.take h.txLen).take (4 + payloadSize C .initHello + 16) := by
  unfold retransmit at hok
  rw [hq] at hok
  simp only [hh] at hok
  by_cases hb : h.txBuf.length < h.txLen
  · rw [if_pos hb] at hok; cases hok
  rw [if_neg hb] at hok
  have hlen : (cpyMin (h.txBuf.take h.txLen) tx).length = tx.length := cpyMin_length _ _
  cases hc : castTx (InitHello.size C) (cpyMin (h.txBuf.take h.txLen) tx) with
  | none => rw [hc] at hok; cases hok
  | some e =>
    rw [hc] at hok
    have hw := castTx_WF hc
    have hsz : Env.size (InitHello.size C) ≤ tx.length := by
      unfold castTx at hc
      split at hc
      · cases hc
      · omega
    have hev : e = Env.view (InitHello.size C) ((cpyMin (h.txBuf.take h.txLen) tx).take (Env.size (InitHello.size C))) := by
      unfold castTx at hc
      split at hc
      · cases hc
      · cases hc; rfl
    have hm : m = ((sealCookie C q e).encode ++ (cpyMin (h.txBuf.take h.txLen) tx).drop (Env.size (InitHello.size C))).take h.txLen := by
      simp only [Except.ok.injEq] at hok
      exact hok.symm
    obtain ⟨ck, hck, hsc⟩ : ∃ ck : Bytes, ck.length = 16 ∧ (sealCookie C q e) = { e with cookie := ck } := by
      unfold sealCookie
      rw [hh]
      exact ⟨_, cookieOf_length L _ _, rfl⟩
    have henc : e.encode = (cpyMin (h.txBuf.take h.txLen) tx).take (Env.size (InitHello.size C)) := by
      rw [hev]
      exact Env.encode_view (by rw [List.length_take, hlen]; omega)
    have htc : e.toCookie.length = 4 + InitHello.size C + 16 := by
      have h1 := Env.encode_length hw
      have h2 := hw.2.2.2
      unfold Env.encode at h1
      rw [List.length_append, h2] at h1
      unfold Env.size at h1
      omega
    have hps : payloadSize C .initHello = InitHello.size C := rfl
    have hst : (h.txBuf.take h.txLen).length = h.txLen := by rw [List.length_take]; omega
    have hB : cpyMin (h.txBuf.take h.txLen) tx = h.txBuf.take h.txLen ++ tx.drop h.txLen := by
      unfold cpyMin
      rw [hst, List.take_of_length_le (by rw [hst]; exact hl)]
    rw [hsc] at hm
    have hE : (({ e with cookie := ck } : Env).encode ++ (cpyMin (h.txBuf.take h.txLen) tx).drop (Env.size (InitHello.size C))).take (4 + InitHello.size C + 16) =
        (cpyMin (h.txBuf.take h.txLen) tx).take (4 + InitHello.size C + 16) := by
      have h1 : (cpyMin (h.txBuf.take h.txLen) tx) = e.encode ++ (cpyMin (h.txBuf.take h.txLen) tx).drop (Env.size (InitHello.size C)) := by
        rw [henc, List.take_append_drop]
      conv => rhs; rw [h1]
      show ((e.toCookie ++ ck) ++ _).take _ = ((e.toCookie ++ e.cookie) ++ _).take _
      rw [List.append_assoc, List.append_assoc, List.take_append_of_le_length (by omega), List.take_append_of_le_length (by omega)]
    have hEl : (({ e with cookie := ck } : Env).encode ++ (cpyMin (h.txBuf.take h.txLen) tx).drop (Env.size (InitHello.size C))).length = tx.length := by
      show ((e.toCookie ++ ck) ++ _).length = _
      rw [List.length_append, List.length_append, List.length_drop, hlen, htc, hck]
      unfold Env.size at hsz ⊢
      omega
    constructor
    · rw [hm, List.length_take, hEl]; omega
    · rw [hm, hps, List.take_take, Nat.min_comm, ← List.take_take, hE, List.take_take, Nat.min_comm, ← List.take_take, hB]
      congr 1
      exact List.take_left' hst

end
end Verif
