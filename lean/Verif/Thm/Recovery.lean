import Verif.Thm.Retransmit
import Verif.Thm.Biscuits
import Verif.Thm.Authentic
import Verif.Thm.TimerEx
/-
A handshake completes although messages are lost and although third parties send what they like.
-/
namespace Verif
open HashDomain Server
variable {C : Crypto}

/-! ### Specification -/

/-- A history of calls from state `s`: each call is well formed, draws a session id that differs from the one it replaces, and satisfies `P` in the
state in which it is made. -/
def Along (C : Crypto) (P : Server → Op → Prop) : Server → List Op → Prop
  | _, [] => True
  | s, o :: ops => o.WF C ∧ Op.Fresh s o ∧ P s o ∧ Along C P (s.step C o) ops

/-- In state `s`, the call `o` leaves the handshake with peer `p` alone: it does not start another one, it does not come so late that the handshake
expires, and it does not process an authentic RespHello or InitConf of that very peer. -/
structure LeavesHandshake (C : Crypto) (p : Nat) (s : Server) (o : Op) : Prop where
  initiate : ∀ t r x, o ≠ .initiate p t r x
  expiry : ∀ t r, o = .poll t r → ∀ h, s.handshake p = some h → t + eventGrace ≤ h.createdAt + secs 180
  message : ∀ rx, o.received = some rx → ∀ q, s.peers[p]? = some q → ∀ rej, ¬ RespHelloFor C s rx p q rej ∧ ¬ InitConfFor C s rx p q rej
  twice : ∀ rx, o.received = some rx → ¬ (rx.head? = some 0x83 ∧ OpensTwice C s rx)

/-- … and also the session: it does not come so late that the session expires, and it does not process a sealed EmptyData for it with a counter that
is not stale. -/
structure LeavesSession (C : Crypto) (p : Nat) (s : Server) (o : Op) : Prop extends LeavesHandshake C p s o where
  sessionExpiry : ∀ t r, o = .poll t r → ∀ x, s.session p = some x → t + eventGrace ≤ x.createdAt + secs 180
  ack : ∀ rx, o.received = some rx → ∀ q, s.peers[p]? = some q → ∀ rej, ¬ EmptyDataFor C s rx q rej

/-- In state `s`, the call `o` of a responder leaves its answer, given at time `t`, to peer `p` open: it is made before 300 s are over, and it does not
process an authentic InitConf of that very peer. -/
structure LeavesOpen (C : Crypto) (p : Nat) (t : Time) (s : Server) (o : Op) : Prop where
  time : ∀ u, o.time = some u → u ≤ t + secs 300 - eventGrace
  message : ∀ rx, o.received = some rx → ∀ q, s.peers[p]? = some q → ∀ rej, ¬ InitConfFor C s rx p q rej
  twice : ∀ rx, o.received = some rx → ¬ (rx.head? = some 0x83 ∧ OpensTwice C s rx)

/-! ### Histories -/

theorem Along.wf {P : Server → Op → Prop} : ∀ {s : Server} {ops : List Op}, Along C P s ops → ∀ o ∈ ops, o.WF C
  | _, [], _, o, ho => by cases ho
  | _, x :: ops, h, o, ho => by
    rcases List.mem_cons.mp ho with rfl | h1
    · exact h.1
    · exact h.2.2.2.wf o h1

theorem Along.fresh {P : Server → Op → Prop} : ∀ {s : Server} {ops : List Op}, Along C P s ops → FreshReachable C s → FreshReachable C (s.run C ops)
  | _, [], _, hs => hs
  | s, o :: ops, h, hs => Along.fresh (s := s.step C o) h.2.2.2 (.step s o hs h.1 h.2.1)

/-- what is preserved by every call of the history is preserved by the history -/
theorem Along.inv {P : Server → Op → Prop} {R : Server → Prop} (hR : ∀ s o, o.WF C → P s o → R s → R (s.step C o)) :
    ∀ {s : Server} {ops : List Op}, Along C P s ops → R s → R (s.run C ops)
  | _, [], _, hs => hs
  | s, o :: ops, h, hs => Along.inv hR (s := s.step C o) h.2.2.2 (hR s o h.1 h.2.2.1 hs)

/-! ### One call -/

/-- the handshake is as before, but for cookie and timer -/
structure KeptHs (h h' : IniHs) : Prop where
  next : h'.next = h.next
  core : h'.core = h.core
  eski : h'.eski = h.eski
  epki : h'.epki = h.epki
  created : h'.createdAt = h.createdAt
  txLen : h'.txLen = h.txLen
  txBuf : h'.txBuf = h.txBuf

theorem KeptHs.refl (h : IniHs) : KeptHs h h := ⟨rfl, rfl, rfl, rfl, rfl, rfl, rfl⟩
theorem KeptHs.trans {a b c : IniHs} (h : KeptHs a b) (g : KeptHs b c) : KeptHs a c :=
  ⟨g.next.trans h.next, g.core.trans h.core, g.eski.trans h.eski, g.epki.trans h.epki, g.created.trans h.created, g.txLen.trans h.txLen, g.txBuf.trans h.txBuf⟩

theorem initiate_other {s : Server} {p p' : Nat} (hne : p' ≠ p) (t : Time) (r : Rnd) (x : Bytes) :
    (s.step C (.initiate p' t r x)).peers[p]? = s.peers[p]? := by
  simp only [Server.step]
  rcases initiate_cases C s p' t r x with ⟨y, hy⟩ | ⟨peer, ih, hs, e, hp, hini, hc, hfree, hm⟩
  · rw [hy]
  · rw [hm]
    simp only [modHs_get, if_neg (Ne.symm hne), hsPut_get]

theorem addPeer_keeps {s : Server} {p : Nat} {q : Peer} (hq : s.peers[p]? = some q) (psk pk v osk) : (s.step C (.addPeer psk pk v osk)).peers[p]? = some q := by
  simp only [Server.step, addPeer]
  split
  · exact hq
  · show (s.peers ++ [_])[p]? = _
    rw [List.getElem?_append_left (List.getElem?_eq_some_iff.mp hq).1]; exact hq

theorem cookie_step {s : Server} {rx tx : Bytes} {now : Time} {r : HashChoice → Rnd} (ht : rx.head? = some 0x86) {p : Nat} {q : Peer} {h : IniHs}
    (hq : s.peers[p]? = some q) (hh : q.handshake = some h) :
    ∃ q' h', (s.handleMsg C rx tx now r).2.peers[p]? = some q' ∧ q'.handshake = some h' ∧ KeptHs h h' ∧ q'.session = q.session := by
  rcases cookieReply_effect_partial (C := C) s rx tx now r ht with ⟨h1, -⟩ | ⟨p', q1, h1, cr, mac, hq1, hh1, -, -, hoth, hres⟩
  · rw [h1]; exact ⟨q, h, hq, hh, .refl h, rfl⟩
  · by_cases hp : p = p'
    · subst hp
      rw [hq] at hq1; cases hq1
      rw [hh] at hh1; cases hh1
      rcases hres with ⟨v, -, -, h2⟩ | ⟨-, -, c, h2⟩
      · exact ⟨_, _, h2, rfl, ⟨rfl, rfl, rfl, rfl, rfl, rfl, rfl⟩, rfl⟩
      · exact ⟨_, _, h2, rfl, ⟨rfl, rfl, rfl, rfl, rfl, rfl, rfl⟩, rfl⟩
    · rw [hoth p hp]; exact ⟨q, h, hq, hh, .refl h, rfl⟩

/-- what a call that leaves the handshake alone does to the peer -/
theorem leaves_step (L : C.Lawful) {s : Server} (hr : Reachable C s) {o : Op} {p : Nat} {q : Peer} {h : IniHs} (hl : LeavesHandshake C p s o)
    (hq : s.peers[p]? = some q) (hh : q.handshake = some h) (hE : ∀ rx, o.received = some rx → ∀ rej, ¬ EmptyDataFor C s rx q rej) :
    ∃ q' h', (s.step C o).peers[p]? = some q' ∧ q'.handshake = some h' ∧ KeptHs h h' ∧
      (q'.session = q.session ∨ ∃ t r x, o = .poll t r ∧ s.session p = some x ∧ x.createdAt + secs 180 < t + eventGrace) := by
  have same : (s.step C o).peers[p]? = s.peers[p]? → ∃ q' h', (s.step C o).peers[p]? = some q' ∧ q'.handshake = some h' ∧ KeptHs h h' ∧
      (q'.session = q.session ∨ ∃ t r x, o = .poll t r ∧ s.session p = some x ∧ x.createdAt + secs 180 < t + eventGrace) :=
    fun e => ⟨q, h, by rw [e]; exact hq, hh, .refl h, .inl rfl⟩
  have msg : ∀ rx, o.received = some rx → (∀ (rx' : Bytes), o.received = some rx' → rx'.head? = some 0x86 →
        ∃ q' h', (s.step C o).peers[p]? = some q' ∧ q'.handshake = some h' ∧ KeptHs h h' ∧ q'.session = q.session) →
      ∃ q' h', (s.step C o).peers[p]? = some q' ∧ q'.handshake = some h' ∧ KeptHs h h' ∧
      (q'.session = q.session ∨ ∃ t r x, o = .poll t r ∧ s.session p = some x ∧ x.createdAt + secs 180 < t + eventGrace) := by
    intro rx hrx hck
    rcases step_changes L hr hrx with h1 | ⟨p', q1, hq1, hoth, hcase⟩ | h1
    · exact same (by rw [h1])
    · by_cases hp : p = p'
      · subst hp
        rw [hq] at hq1; cases hq1
        rcases hcase with h2 | h2 | h2 | h2
        · exact absurd h2 (hl.message rx hrx q hq _).1
        · exact absurd h2 (hl.message rx hrx q hq _).2
        · exact absurd h2 (hE rx hrx _)
        · obtain ⟨q', h', e1, e2, e3, e4⟩ := hck rx hrx h2.1
          exact ⟨q', h', e1, e2, e3, .inl e4⟩
      · exact same (hoth p hp)
    · exact absurd h1 (hl.twice rx hrx)
  cases o with
  | addPeer psk pk v osk => exact same (by rw [addPeer_keeps hq, hq])
  | initiate p' t r x =>
    by_cases hp : p' = p
    · subst hp; exact absurd rfl (hl.initiate t r x)
    · exact same (initiate_other hp t r x)
  | handleMsg rx tx now r =>
    refine msg rx rfl fun rx' hrx' h86 => ?_
    cases hrx'
    exact cookie_step h86 hq hh
  | handleMsgUnderLoad rx tx host now r =>
    refine msg rx rfl fun rx' hrx' h86 => ?_
    cases hrx'
    refine ⟨q, h, ?_, hh, .refl h, rfl⟩
    simp only [Server.step]
    cases rx with
    | nil => cases h86
    | cons b bs =>
      simp only [List.head?_cons, Option.some.injEq] at h86
      subst h86
      exact hq
  | poll t r =>
    simp only [Server.step]
    cases hpo : s.poll t r with
    | none => exact ⟨q, h, hq, hh, .refl h, .inl rfl⟩
    | some x =>
      obtain ⟨c, s'⟩ := x
      dsimp only
      obtain ⟨q', hq', E⟩ := poll_effect hpo hq
      have hses : q'.session = q.session ∨ ∃ t' r' x, (Op.poll t r) = .poll t' r' ∧ s.session p = some x ∧ x.createdAt + secs 180 < t' + eventGrace := by
        rcases E.session with h1 | ⟨rfl, h1⟩
        · exact .inl h1
        · right
          obtain ⟨p1, q1, hq1, hd⟩ := ((poll_exact hpo).1 rfl).1
          have hpp : p1 = p := by
            have := hd.peer
            simp only [PollResult.peer, Option.some.injEq] at this
            exact this.symm
          subst hpp
          rw [hq] at hq1; cases hq1
          cases hd with
          | deleteKey x hx hx2 => exact ⟨t, r, x, rfl, by unfold session; rw [hq]; exact hx, hx2⟩
      rcases E.handshake with ⟨-, h1 | ⟨-, h2, hh2, hex⟩⟩ | ⟨-, h2, hh2, h3⟩
      · exact ⟨q', h, hq', by rw [h1]; exact hh, .refl h, hses⟩
      · rw [hh] at hh2; cases hh2
        have := hl.expiry t r rfl h (by unfold handshake; rw [hq]; exact hh)
        exact absurd hex (Int.not_lt.mpr this)
      · rw [hh] at hh2; cases hh2
        exact ⟨q', _, hq', h3, ⟨rfl, rfl, rfl, rfl, rfl, rfl, rfl⟩, hses⟩
  | retransmit p' tx => exact same (by simp only [Server.step, retransmit_state])

/-! ### The last biscuit accepted from a peer -/

/-- every peer is still there and the last biscuit number accepted from it is unchanged -/
def UsedKept (s s' : Server) : Prop :=
  ∀ (p : Nat) (q : Peer), s.peers[p]? = some q → ∃ q', s'.peers[p]? = some q' ∧ q'.biscuitUsed = q.biscuitUsed

theorem UsedKept.same {s s' : Server} (h : s'.peers = s.peers) : UsedKept s s' := fun p q hq => ⟨q, by rw [h]; exact hq, rfl⟩
theorem UsedKept.trans {a b c : Server} (h : UsedKept a b) (g : UsedKept b c) : UsedKept a c := by
  intro p q hq
  obtain ⟨q1, h1, e1⟩ := h p q hq
  obtain ⟨q2, h2, e2⟩ := g p q1 h1
  exact ⟨q2, h2, e2.trans e1⟩
theorem UsedKept.upd {s s' : Server} {i : Nat} {f : Peer → Peer} (hu : Upd s s' i f) (hf : ∀ q, (f q).biscuitUsed = q.biscuitUsed) : UsedKept s s' := by
  intro p q hq
  have := hu p
  rw [hq] at this
  by_cases hp : p = i
  · rw [if_pos hp] at this; exact ⟨f q, this, hf q⟩
  · rw [if_neg hp] at this; exact ⟨q, this, rfl⟩

theorem handleMsg_used (s : Server) (rx tx : Bytes) (now : Time) (r : HashChoice → Rnd) (h83 : rx.head? ≠ some 0x83) : UsedKept s (s.handleMsg C rx tx now r).2 := by
  rcases handleMsg_dispatch C s rx tx now r with ⟨x, hx, -⟩ | ⟨t, bs, out, hrx, hout, hd⟩
  · rw [hx]; exact .same rfl
  rcases hd with ⟨rfl, e, he, hh⟩ | ⟨rfl, e, he, hh⟩ | ⟨rfl, e, he, hh⟩ | ⟨rfl, e, he, hh⟩ | ⟨rfl, cr, he, hh⟩
  · rw [hh]
    rcases msgInitHello_cases C s e out now r with ⟨y, hx⟩ | ⟨h', q, c, peer, rh, R⟩
    · rw [hx]; exact .same rfl
    · rcases R.result with ⟨h1, -⟩ | ⟨h1, -⟩ | ⟨h1, -⟩ <;> (rw [h1]; exact .same (issued_peers _ _ _))
  · rw [hh]
    rcases msgRespHello_cases C s e tx now (r .shake) with ⟨y, hx⟩ | ⟨out', p, c, ic, peer, hs, hc, R⟩
    · rw [hx]; exact .same rfl
    · have hacc : ∀ ses, UsedKept s (s.accepted p ses) := fun ses => .upd (accepted_get s p ses) (fun _ => rfl)
      rcases R.result with ⟨h1, -⟩ | ⟨h1, -⟩ | ⟨h1, -⟩
      · rw [h1]; exact .upd (sessTake_get s p) (fun _ => rfl)
      · rw [h1]; exact hacc _
      · rw [h1]; exact (hacc _).trans (.upd (modHs_get _ p _) (fun _ => rfl))
  · exact absurd (by rw [hrx]; rfl) h83
  · rw [hh]
    rcases handleRespConf_cases C s e with ⟨x, hx⟩ | ⟨p, peer, ses, hl, hp, hses, hn, hck, hct, hres⟩
    · rw [hx]; exact .same rfl
    · have h1 : UsedKept s (s.modPeer p (fun q => { q with session := some { ses with txnt := leNat (EmptyData.decode e.payload).ctr } })) :=
        .upd (modPeer_get s p _) (fun _ => rfl)
      rcases hres with ⟨h2, -⟩ | ⟨h2, -⟩
      · rw [h2]; exact h1
      · rw [h2]; exact h1.trans (.upd (hsTake_get _ p) (fun _ => rfl))
  · rw [hh]
    rcases handleCookieReply_cases C s cr now with ⟨x, hx⟩ | ⟨p, peer, hs, mac, hl, hp, hhs, hm, hres⟩
    · rw [hx]; exact .same rfl
    · rcases hres with ⟨-, h1⟩ | ⟨v, -, h1⟩
      · rw [h1]; exact .upd (modHs_get _ p _) (fun _ => rfl)
      · rw [h1]; exact .upd (modHs_get _ p _) (fun _ => rfl)

theorem underLoad_used (s : Server) (rx tx host : Bytes) (now : Time) (r : HashChoice → Rnd) (h83 : rx.head? ≠ some 0x83) :
    UsedKept s (s.handleMsgUnderLoad C rx tx host now r).2 := by
  rcases underLoad_cases C s rx tx host now r with ⟨x, -, hx, -⟩ | ⟨-, hx⟩ | ⟨h81, i, ids, s1, -, hs1, ⟨-, hx⟩ |
    ⟨e, -, ⟨-, hx⟩ | ⟨-, ⟨-, hx⟩ | ⟨-, hx⟩⟩⟩⟩
  · rw [hx]; exact .same rfl
  · rw [hx]; exact handleMsg_used s rx tx now r h83
  · rw [hx]; exact .same (by rw [hs1])
  · rw [hx]
    exact UsedKept.trans (.same (by rw [hs1])) (handleMsg_used s1 rx tx now r h83)
  · rw [hx]; exact .same (by rw [hs1])
  · rw [hx]; exact .same (by rw [hs1])

/-- a call that leaves the answer open accepts no biscuit of the peer -/
theorem open_step (L : C.Lawful) {s : Server} (hr : Reachable C s) {o : Op} {p : Nat} {q : Peer} {t : Time} (hl : LeavesOpen C p t s o)
    (hq : s.peers[p]? = some q) : ∃ q', (s.step C o).peers[p]? = some q' ∧ q'.biscuitUsed = q.biscuitUsed := by
  have conf : ∀ rx, o.received = some rx → rx.head? = some 0x83 → ∃ q', (s.step C o).peers[p]? = some q' ∧ q'.biscuitUsed = q.biscuitUsed := by
    intro rx hrx h83
    rcases step_changes L hr hrx with h1 | ⟨p', q1, hq1, hoth, hcase⟩ | h1
    · exact ⟨q, by rw [h1]; exact hq, rfl⟩
    · by_cases hp : p = p'
      · subst hp
        rw [hq] at hq1; cases hq1
        rcases hcase with h2 | h2 | h2 | h2
        · have := h2.1; rw [h83] at this; cases this
        · exact absurd h2 (hl.message rx hrx q hq _)
        · have := h2.1; rw [h83] at this; cases this
        · have := h2.1; rw [h83] at this; cases this
      · exact ⟨q, by rw [hoth p hp]; exact hq, rfl⟩
    · exact absurd h1 (hl.twice rx hrx)
  cases o with
  | addPeer psk pk v osk => exact ⟨q, addPeer_keeps hq psk pk v osk, rfl⟩
  | initiate p' t r x =>
    simp only [Server.step]
    rcases initiate_cases C s p' t r x with ⟨y, hy⟩ | ⟨peer, ih, hs, e, hp, hini, hc, hfree, hm⟩
    · rw [hy]; exact ⟨q, hq, rfl⟩
    · rw [hm]
      exact (UsedKept.upd (hsPut_get s p' hs) (fun _ => rfl)).trans (.upd (modHs_get _ p' _) (fun _ => rfl)) p q hq
  | handleMsg rx tx now r =>
    by_cases h83 : rx.head? = some 0x83
    · exact conf rx rfl h83
    · exact handleMsg_used s rx tx now r h83 p q hq
  | handleMsgUnderLoad rx tx host now r =>
    by_cases h83 : rx.head? = some 0x83
    · exact conf rx rfl h83
    · exact underLoad_used s rx tx host now r h83 p q hq
  | poll t r =>
    simp only [Server.step]
    cases hpo : s.poll t r with
    | none => exact ⟨q, hq, rfl⟩
    | some x =>
      obtain ⟨c, s'⟩ := x
      obtain ⟨q', hq', E⟩ := poll_effect hpo hq
      exact ⟨q', hq', E.static.2⟩
  | retransmit p' tx => exact ⟨q, by simp only [Server.step, retransmit_state]; exact hq, rfl⟩

/-! ### Whole histories -/

theorem pending_run (L : C.Lawful) {p : Nat} : ∀ {s : Server} {ops : List Op}, Reachable C s → Along C (LeavesHandshake C p) s ops →
    ∀ {q : Peer} {h : IniHs}, s.peers[p]? = some q → q.handshake = some h → h.next = .respHello →
    ∃ q' h', (s.run C ops).peers[p]? = some q' ∧ q'.handshake = some h' ∧ KeptHs h h'
  | _, [], _, _, q, h, hq, hh, _ => ⟨q, h, hq, hh, .refl h⟩
  | s, o :: ops, hr, al, q, h, hq, hh, hn => by
    obtain ⟨q1, h1, e1, e2, e3, -⟩ := leaves_step L hr al.2.2.1 hq hh (by
      rintro rx - rej ⟨-, e, hs, ses, -, hhs, hnext, -⟩
      rw [hh] at hhs; cases hhs
      rw [hn] at hnext; cases hnext)
    obtain ⟨q2, h2, g1, g2, g3⟩ := pending_run L (s := s.step C o) (.step _ _ hr al.1) al.2.2.2 e1 e2 (e3.next.trans hn)
    exact ⟨q2, h2, g1, g2, e3.trans g3⟩

theorem session_run (L : C.Lawful) {p : Nat} : ∀ {s : Server} {ops : List Op}, Reachable C s → Along C (LeavesSession C p) s ops →
    ∀ {q : Peer} {h : IniHs}, s.peers[p]? = some q → q.handshake = some h →
    ∃ q' h', (s.run C ops).peers[p]? = some q' ∧ q'.handshake = some h' ∧ KeptHs h h' ∧ q'.session = q.session
  | _, [], _, _, q, h, hq, hh => ⟨q, h, hq, hh, .refl h, rfl⟩
  | s, o :: ops, hr, al, q, h, hq, hh => by
    have hl := al.2.2.1
    obtain ⟨q1, h1, e1, e2, e3, e4⟩ := leaves_step L hr hl.toLeavesHandshake hq hh (fun rx hrx rej => hl.ack rx hrx q hq rej)
    have e4 : q1.session = q.session := by
      rcases e4 with h | ⟨t, r, x, rfl, hx, hlt⟩
      · exact h
      · exact absurd hlt (Int.not_lt.mpr (hl.sessionExpiry t r rfl x hx))
    obtain ⟨q2, h2, g1, g2, g3, g4⟩ := session_run L (s := s.step C o) (.step _ _ hr al.1) al.2.2.2 e1 e2
    exact ⟨q2, h2, g1, g2, e3.trans g3, g4.trans e4⟩

theorem open_run (L : C.Lawful) {p : Nat} {t : Time} : ∀ {s : Server} {ops : List Op}, Reachable C s → Along C (LeavesOpen C p t) s ops →
    ∀ {q : Peer}, s.peers[p]? = some q → ∃ q', (s.run C ops).peers[p]? = some q' ∧ q'.biscuitUsed = q.biscuitUsed
  | _, [], _, _, q, hq => ⟨q, hq, rfl⟩
  | s, o :: ops, hr, al, q, hq => by
    obtain ⟨q1, e1, e2⟩ := open_step L hr al.2.2.1 hq
    obtain ⟨q2, g1, g2⟩ := open_run L (s := s.step C o) (.step _ _ hr al.1) al.2.2.2 e1
    exact ⟨q2, g1, g2.trans e2⟩

theorem Along.mono {P Q : Server → Op → Prop} (h : ∀ s o, P s o → Q s o) : ∀ {s : Server} {ops : List Op}, Along C P s ops → Along C Q s ops
  | _, [], _ => trivial
  | s, o :: ops, al => ⟨al.1, al.2.1, h s o al.2.2.1, Along.mono h (s := s.step C o) al.2.2.2⟩

theorem Along.all {P : Server → Op → Prop} {Q : Op → Prop} (h : ∀ s o, P s o → Q o) : ∀ {s : Server} {ops : List Op}, Along C P s ops → ∀ o ∈ ops, Q o
  | _, [], _, o, ho => by cases ho
  | s, x :: ops, al, o, ho => by
    rcases List.mem_cons.mp ho with rfl | h1
    · exact h s _ al.2.2.1
    · exact Along.all h (s := s.step C x) al.2.2.2 o h1

/-! ### Sending the stored message again -/

theorem retransmit_ok (L : C.Lawful) {s : Server} {p : Nat} {q : Peer} {h : IniHs} {m tx : Bytes} (hq : s.peers[p]? = some q) (hh : q.handshake = some h)
    (hl : h.txLen = m.length) (hb : h.txBuf.take m.length = m) (hm : m.length ≤ Env.size (InitHello.size C)) (htx : Env.size (InitHello.size C) ≤ tx.length) :
    ∃ m', s.retransmit C p tx = (.ok m', s) ∧ m'.length = m.length ∧
      m'.take (4 + payloadSize C .initHello + 16) = m.take (4 + payloadSize C .initHello + 16) := by
  have hlen : m.length ≤ h.txBuf.length := by
    have := congrArg List.length hb
    rw [List.length_take] at this; omega
  obtain ⟨m', hm'⟩ : ∃ m', (s.retransmit C p tx).1 = .ok m' := by
    unfold retransmit
    rw [hq]
    simp only [hh]
    rw [if_neg (by omega)]
    obtain ⟨e, he, -⟩ := castTx_some (n := InitHello.size C) (tx := cpyMin (h.txBuf.take h.txLen) tx) (by rw [cpyMin_length]; exact htx)
    rw [he]
    exact ⟨_, rfl⟩
  obtain ⟨h1, h2⟩ := retransmitted_content L s p tx m' hq hh (by omega) hm'
  refine ⟨m', Prod.ext hm' (retransmit_state C s p tx), h1.trans hl, ?_⟩
  rw [h2, hl, hb]

/-! ### Before and after each message -/

theorem lookup_index {s : Server} {id : Bytes} {p : Nat} (h : s.lookupHandshake id = some p) : s.index (.sid id) = some p := by
  unfold lookupHandshake at h
  split at h
  · cases h
  · rename_i q hq
    split at h
    · rw [hq]; exact h
    · cases h

theorem fresh_index (L : C.Lawful) {s : Server} (hf : FreshReachable C s) {p : Nat} {q : Peer} {h : IniHs} (hq : s.peers[p]? = some q)
    (hh : q.handshake = some h) : s.index (.sid h.core.sidi) = some p :=
  lookup_index ((index_complete_partial L hf).1 p h (by unfold handshake; rw [hq]; exact hh))

theorem SameButCookie.head {m m' : Bytes} (h : SameButCookie m m') (hl : 16 < m.length) : m'.head? = m.head? := by
  have h1 := congrArg List.head? h.bytes
  rwa [List.head?_take, List.head?_take, if_neg (by omega), if_neg (by omega)] at h1

/-- the InitConf is stored for retransmission -/
theorem accept_stored (L : C.Lawful) {s s' : Server} {rx tx m : Bytes} {now : Time} {r : HashChoice → Rnd} {p : Nat} (h82 : rx.head? = some 0x82)
    (hok : s.handleMsg C rx tx now r = (.ok ⟨some p, some m⟩, s')) :
    ∃ q h, s.peers[p]? = some q ∧ q.handshake = some h ∧ m.head? = some 0x83 ∧ m.length = Env.size InitConf.size ∧
      ∃ q' h', s'.peers[p]? = some q' ∧ q'.handshake = some h' ∧ h'.txLen = m.length ∧ h'.txBuf = cpyMin m h.txBuf ∧
        h'.core.sidi = h.core.sidi ∧ h'.createdAt = h.createdAt := by
  rcases handleMsg_exchanged hok with ⟨e, out, c, ic, peer, hs, bs, hty, he, hc, hck, R⟩ | ⟨e, out, h, s0, no, c, peer, bs, hty, -⟩
  · have hrh := RespHello.decode_WF (C := C) ((Env.decode_eq_some he).2 ▸ (Env.view_WF (Env.decode_eq_some he).1).2.1)
    have hwout := castTx_WF hc
    have hwf : ({ out with payload := ic.encode } : Env).WF InitConf.size :=
      ⟨hwout.1, InitConf.encode_length (rhiVerify_ic_WF L hrh R.verify), hwout.2.2.1, hwout.2.2.2⟩
    rcases R.result with ⟨h1, -⟩ | ⟨h1, -⟩ | ⟨h1, -⟩
    · cases h1
    · cases h1
    · obtain ⟨h2, h3⟩ := Prod.mk.inj h1
      simp only [Except.ok.injEq, MsgResult.mk.injEq, true_and, Option.some.injEq] at h2
      have S := sealMsg_sealed L { peer with session := some (c.enterLive C now .initiator peer.version.hash), handshake := some { hs with core := hs.core.erase, next := .respConf } }
        .initConf { out with payload := ic.encode } hwf
      rw [← h2] at h3
      refine ⟨peer, hs, R.hpeer, R.hhs, ?_, ?_, ?_⟩
      · obtain ⟨bs', hbs⟩ := S.cons
        rw [h2, hbs]; rfl
      · rw [h2]; exact Env.encode_length S.wf
      · have hget := modHs_get (s.accepted p (c.enterLive C now .initiator peer.version.hash)) p (fun hs =>
          regRetransmit now (r .shake).jit { hs with txBuf := cpyMin m hs.txBuf, txCount := 0, txLen := m.length }) p
        rw [if_pos rfl, accepted_get, if_pos rfl, R.hpeer, ← h3] at hget
        simp only [Option.map_some, R.hhs] at hget
        exact ⟨_, _, hget, rfl, rfl, rfl, rfl, rfl⟩
  · rw [hty] at h82; cases h82

/-- an exchange reported for an InitConf is an accepted InitConf -/
theorem acceptsConf_of {s s' : Server} {rx tx m : Bytes} {now : Time} {r : HashChoice → Rnd} {p : Nat} (h83 : rx.head? = some 0x83)
    (hok : s.handleMsg C rx tx now r = (.ok ⟨some p, some m⟩, s')) : ∃ b, AcceptsConf C s (.handleMsg rx tx now r) p b := by
  rcases handleMsg_exchanged hok with ⟨e, out, c, ic, peer, hs, bs, hty, -⟩ | ⟨e, out, h, s0, no, c, peer, bs, hty, he, hc, hn, hA, hver, hck, R⟩
  · rw [hty] at h83; cases h83
  · obtain ⟨hg, -, hpeers⟩ := AttemptState.facts hA
    obtain ⟨peer0, hp0, hst, -⟩ := hpeers p peer R.hpeer
    obtain ⟨pt, hpt⟩ := Option.isSome_iff_exists.mp (icrVerify_opens R.verify)
    rw [hg.biscuitKeys, hg.spkm, ← hver, hst.2.2.1] at hpt
    exact ⟨_, rx, some m, peer0, e, pt, rfl, by show (s.handleMsg C rx tx now r).1 = _; rw [hok], h83, he, hp0, hpt, rfl⟩

theorem kept_pending (L : C.Lawful) {s : Server} (hr : Reachable C s) (hf : FreshReachable C s) {p : Nat} {q : Peer} {h : IniHs} (hq : s.peers[p]? = some q)
    (hh : q.handshake = some h) (hn : h.next = .respHello) {ops : List Op} (al : Along C (LeavesHandshake C p) s ops) :
    StillPending s (s.run C ops) p h.core.sidi := by
  obtain ⟨q', h', hq', hh', k⟩ := pending_run L hr al hq hh hn
  have hl := run_later L ops al.wf s
  refine ⟨hl.sskm, hl.spkm, ?_, ?_⟩
  · intro q1 hq1
    rw [hq] at hq1; cases hq1
    obtain ⟨q2, hq2, hst, -⟩ := hl.peers p q hq
    rw [hq'] at hq2; cases hq2
    refine ⟨q', hq', hst.2.1, hst.2.2.1, hst.2.2.2, ?_⟩
    rw [hh, hh']
    simp only [Option.map_some, k.next, k.core, k.eski, k.epki]
  · rw [fresh_index L hf hq hh, ← k.core, fresh_index L (al.fresh hf) hq' hh']

theorem kept_unconfirmed (L : C.Lawful) {s : Server} (hr : Reachable C s) (hf : FreshReachable C s) {p : Nat} {q : Peer} {h : IniHs} (hq : s.peers[p]? = some q)
    (hh : q.handshake = some h) {ops : List Op} (al : Along C (LeavesSession C p) s ops) : StillUnconfirmed s (s.run C ops) p h.core.sidi := by
  obtain ⟨q', h', hq', hh', k, hs⟩ := session_run L hr al hq hh
  have hl := run_later L ops al.wf s
  refine ⟨hl.spkm, ?_, ?_⟩
  · intro q1 hq1
    rw [hq] at hq1; cases hq1
    obtain ⟨q2, hq2, hst, -⟩ := hl.peers p q hq
    rw [hq'] at hq2; cases hq2
    refine ⟨q', hq', hst.2.2.1, hst.2.2.2, hs, ?_⟩
    rw [hh, hh']
    simp only [Option.map_some, k.next, k.core]
  · rw [fresh_index L hf hq hh, ← k.core, fresh_index L (al.fresh hf) hq' hh']

/-! ### The claim -/

/-- **C99.** A starts a handshake with B. Whatever other calls are made at A, as long as they leave the handshake alone, A can send the first message
again and B answers each copy. Whichever copy B answered, A accepts the answer, whatever happened meanwhile, and from then on can send the third message
again, byte for byte. B accepts it after any calls within 300 s of its answer that leave the answer open, and has the same key. B answers each further
copy with the same fourth message, as long as it remembers the answer, and A accepts any of them after any calls that leave the session alone. -/
theorem completes_despite_loss (L : C.Lawful) (K : C.KemTotal) {A B : Server} {pa pb : Nat} {eb ea : Peer} (hA : FreshReachable C A)
    (M : Mutual C A B pa pb eb ea) {rA : Rnd} {rB : HashChoice → Rnd} (hrA : rA.WF C) (hrB : ∀ h, (rB h).WF C)
    (hsidA : A.index (.sid rA.sid) = none) (hnewA : (A.handshake pa).map (·.core.sidi) ≠ some rA.sid)
    (hused : leNat ea.biscuitUsed < leNat B.biscuitCtr)
    (t1 t2 t3 t4 t5 : Time) (h0 : 0 ≤ t2) (r3 r4 r5 : HashChoice → Rnd) (hr3 : ∀ h, (r3 h).WF C) (hr4 : ∀ h, (r4 h).WF C) {x1 x2 x3 x4 x5 : Bytes}
    (h1 : Env.size (InitHello.size C) ≤ x1.length) (h2 : Env.size (RespHello.size C) ≤ x2.length)
    (h3 : Env.size (RespHello.size C) ≤ x3.length) (h4 : Env.size (RespHello.size C) ≤ x4.length)
    (h5 : Env.size (RespHello.size C) ≤ x5.length) :
    ∃ m1 A1, A.initiate C pa t1 rA x1 = (.ok m1, A1) ∧
    ∀ opsA, Along C (LeavesHandshake C pa) A1 opsA →
      (∀ x, Env.size (InitHello.size C) ≤ x.length →
        ∃ m1', (A1.run C opsA).retransmit C pa x = (.ok m1', A1.run C opsA) ∧ SameButCookie m1 m1') ∧
      ∀ m1', SameButCookie m1 m1' → HelloUnambiguous C B ea.version m1' →
      ∃ m2 B1, B.handleMsg C m1' x2 t2 rB = (.ok ⟨none, some m2⟩, B1) ∧
      ∃ m3 A2, (A1.run C opsA).handleMsg C m2 x3 t3 r3 = (.ok ⟨some pa, some m3⟩, A2) ∧
      (∀ opsA', Along C (LeavesSession C pa) A2 opsA' → ∀ x, Env.size (InitHello.size C) ≤ x.length →
        (A2.run C opsA').retransmit C pa x = (.ok m3, A2.run C opsA')) ∧
      ∀ opsB, Along C (LeavesOpen C pb t2) B1 opsB → ¬ SidTaken (B1.run C opsB) pb (rB ea.version.hash).sid →
      ConfUnambiguous C (B1.run C opsB) ea.version m3 →
      ∃ m4 B2, (B1.run C opsB).handleMsg C m3 x4 t4 r4 = (.ok ⟨some pb, some m4⟩, B2) ∧
      ∃ k, A2.osk C pa = .ok k ∧ B2.osk C pb = .ok k ∧
      (∀ opsB', (∀ o ∈ opsB', o.WF C) → (B2.run C opsB').known pb = B2.known pb → ∀ x t r, Env.size (RespHello.size C) ≤ x.length →
        ∃ m4', (B2.run C opsB').handleMsg C m3 x t r = (.ok ⟨none, some m4'⟩, B2.run C opsB') ∧ SameButCookie m4 m4') ∧
      ∀ opsA', Along C (LeavesSession C pa) A2 opsA' → ∀ m4', SameButCookie m4 m4' →
      ∃ A3, (A2.run C opsA').handleMsg C m4' x5 t5 r5 = (.ok ⟨none, none⟩, A3) ∧ A3.handshake pa = none ∧ A3.osk C pa = .ok k := by
  obtain ⟨ih, hs0, hs, e1, A1', hini, hcall, S1, hp1, hcore, hnext, -⟩ := initiate_ok (now := t1) L K hrA M.atA hsidA hnewA h1
  obtain ⟨m1, A1, hc1, g1⟩ := key_agreement_resent L K M hrA hrB hsidA hnewA t1 t2 t3 t4 t5 r3 r4 r5 h1 h2 h3 h4 h5
  have hpend := initiate_pending L K hrA M.atA hsidA hnewA hc1
  rw [hc1] at hcall
  obtain ⟨hm, rfl⟩ := Prod.mk.inj hcall
  simp only [Except.ok.injEq] at hm
  have hlen1 : m1.length = Env.size (InitHello.size C) := by rw [hm]; exact Env.encode_length S1.wf
  obtain ⟨q1, hs1, -, hq1, -, hh1, -, hhead1, htl, htb, htake, -⟩ := hpend
  rw [hp1] at hq1
  simp only [Option.some.injEq] at hq1
  have hhs1 : hs = hs1 := by rw [← hq1] at hh1; simpa using hh1
  subst hhs1
  have hq1p : A1.peers[pa]? = some q1 := by rw [hp1, hq1]
  have hsid : hs.core.sidi = rA.sid := by rw [hcore]; exact (initiation_facts hini).2.1
  have hfA1 : FreshReachable C A1 := by
    have := FreshReachable.step A (.initiate pa t1 rA x1) hA hrA hnewA
    simpa only [Server.step, hc1] using this
  have hrA1 : Reachable C A1 := by
    have := Reachable.step A (.initiate pa t1 rA x1) M.reachA hrA
    simpa only [Server.step, hc1] using this
  have hps : payloadSize C .initHello = InitHello.size C := rfl
  refine ⟨m1, A1, hc1, fun opsA al => ⟨?_, ?_⟩⟩
  · intro x hx
    obtain ⟨q', h', hq', hh', k⟩ := pending_run L hrA1 al hq1p hh1 hnext
    obtain ⟨m', e1, e2, e3⟩ := retransmit_ok L (tx := x) hq' hh' (k.txLen.trans htl) (by rw [k.txBuf]; exact htake) (Nat.le_of_eq hlen1) hx
    refine ⟨m', e1, e2, ?_⟩
    have : m1.length - 16 = 4 + payloadSize C .initHello + 16 := by rw [hlen1, hps]; unfold Env.size; omega
    rw [this, e3]
  · intro m1' hm1' hun
    obtain ⟨m2, B1, hc2, h82, g2⟩ := g1 m1' hm1' hun
    refine ⟨m2, B1, hc2, ?_⟩
    have SP := kept_pending L hrA1 hfA1 hq1p hh1 hnext al
    rw [hsid] at SP
    obtain ⟨m3, A2, hc3, g3⟩ := g2 _ SP
    refine ⟨m3, A2, hc3, ?_⟩
    have hfA2 : FreshReachable C A2 := by
      have := FreshReachable.step (A1.run C opsA) (.handleMsg m2 x3 t3 r3) (al.fresh hfA1) hr3 trivial
      simpa only [Server.step, hc3] using this
    have hrA2 : Reachable C A2 := by
      have := Reachable.step (A1.run C opsA) (.handleMsg m2 x3 t3 r3) (run_reachable opsA al.wf A1 hrA1) hr3
      simpa only [Server.step, hc3] using this
    obtain ⟨qa, ha, hqa, hha, h83, hlen3, q2, hs2, hq2, hh2, htl2, htb2, hsid2, -⟩ := accept_stored L h82 hc3
    obtain ⟨q', h', hq', hh', k⟩ := pending_run L hrA1 al hq1p hh1 hnext
    rw [hqa] at hq'; cases hq'
    rw [hha] at hh'; cases hh'
    have hfits := L.fits
    have hle3 : m3.length ≤ 4 + payloadSize C .initHello + 16 := by
      rw [hlen3]; simp only [Env.size, InitConf.size, payloadSize, biscuitCtLen]; omega
    have hb2 : hs2.txBuf.take m3.length = m3 := by
      rw [htb2]
      refine cpyMin_take ?_
      rw [k.txBuf, htb]
      simp only [payloadSize] at hle3; omega
    refine ⟨?_, ?_⟩
    · intro opsA' al' x hx
      obtain ⟨q', h', hq', hh', k', -⟩ := session_run L hrA2 al' hq2 hh2
      obtain ⟨m', e1, e2, e3⟩ := retransmit_ok L (tx := x) hq' hh' (k'.txLen.trans htl2) (by rw [k'.txBuf]; exact hb2)
        (by unfold Env.size; rw [hps] at hle3; omega) hx
      rw [List.take_of_length_le (by omega), List.take_of_length_le (by omega)] at e3
      rw [e1, e3]
    · intro opsB alB hfree hcu
      have hrB1 : Reachable C B1 := by
        have := Reachable.step B (.handleMsg m1' x2 t2 rB) M.reachB hrB
        simpa only [Server.step, hc2] using this
      have hlB := run_later L opsB alB.wf B1
      have hrB1' := run_reachable opsB alB.wf B1 hrB1
      have hhead1' : m1'.head? = some 0x81 := by
        rw [hm1'.head (by rw [hlen1]; unfold Env.size; omega), hhead1]
      have SO : StillOpen C B1 (B1.run C opsB) pb B.biscuitCtr (rB ea.version.hash).sid m2 := by
        refine ⟨hrB1', hlB.spkm, ?_, ?_, ?_⟩
        · have := biscuit_stays_valid L M.reachB (.handleMsg m1' x2 t2 rB) hrB t2 h0 rfl none m2 (by show (B.handleMsg C m1' x2 t2 rB).1 = _; rw [hc2]) h82
            opsB alB.wf (alB.all (fun s o hl u hu => hl.time u hu))
          obtain ⟨-, -, -, hk⟩ := this
          have hst : B.step C (.handleMsg m1' x2 t2 rB) = B1 := by simp only [Server.step, hc2]
          rw [hst] at hk
          exact congrArg Store.value hk
        · intro q hq
          obtain ⟨q', hq', hst, -⟩ := hlB.peers pb q hq
          obtain ⟨q'', hq'', hu⟩ := open_run L hrB1 alB hq
          rw [hq'] at hq''; cases hq''
          refine ⟨q', hq', hst.2.1, hst.2.2.1, hst.2.2.2, ?_⟩
          have huB := handleMsg_used (C := C) B m1' x2 t2 rB (by rw [hhead1']; decide) pb ea M.atB
          rw [hc2] at huB
          obtain ⟨qb, hqb, hub⟩ := huB
          dsimp only at hqb
          rw [hq] at hqb; cases hqb
          rw [hu, hub]; exact hused
        · cases hi : (B1.run C opsB).index (.sid (rB ea.version.hash).sid) with
          | none => exact .inl rfl
          | some p' =>
            right
            have hc := Reachable.sidSound L hrB1' _ _ hi
            by_cases hp : p' = pb
            · rw [hp]
            · exact absurd ⟨p', hp, hc⟩ hfree
      obtain ⟨m4, B2, hc4, key, k1, k2, g4⟩ := g3 _ SO hcu
      refine ⟨m4, B2, hc4, key, k1, k2, ?_, ?_⟩
      · intro opsB' hw hknown x t r hx
        obtain ⟨b, hacc⟩ := acceptsConf_of h83 hc4
        have hst : (B1.run C opsB).step C (.handleMsg m3 x4 t4 r4) = B2 := by simp only [Server.step, hc4]
        have := retransmitted_conf_idempotent L hrB1' (.handleMsg m3 x4 t4 r4) hr4 pb b hacc m3 rfl opsB' hw (by rw [hst]; exact hknown) x
          hx t r
        obtain ⟨m, m', e1, e2, -, e3, -⟩ := this
        rw [hst] at e2
        have hm : m = m4 := by
          have : ((B1.run C opsB).handleMsg C m3 x4 t4 r4).1 = .ok ⟨some pb, some m⟩ := e1
          rw [hc4] at this
          simpa using this.symm
        subst hm
        exact ⟨m', e2, e3⟩
      · intro opsA' al' m4' hm4'
        have hsid' : hs2.core.sidi = rA.sid := by rw [hsid2, k.core, hsid]
        have SU := kept_unconfirmed L hrA2 hfA2 hq2 hh2 al'
        rw [hsid'] at SU
        exact g4 _ m4' SU hm4'

/-! ### An example -/

namespace Ex

theorem server_fresh (sk pk : Bytes) (v : Version) : FreshReachable Toy.crypto (server sk pk v) := by
  refine FreshReachable.step (fresh sk) (.addPeer (some (toLE 32 77)) pk v .wireguardPsk) (.new _ _ _ _ _ _ _) ?_ trivial
  intro k hk
  cases hk
  exact toLE_length _ _

/-- what happens at the initiator after it sent the InitHello: its own message comes back, a message of unknown type arrives, a poll, a retransmission -/
def between (v : Version) : List Op :=
  [.handleMsg (m1 v) buf 1 (fun _ => rnd 33), .handleMsg [0xff, 1, 2, 3] buf 2 (fun _ => rnd 34), .poll 3 prnd, .retransmit 0 buf]

/-- what happens at the responder after its RespHello: the InitHello arrives once more, and a message of unknown type -/
def meanwhile (v : Version) : List Op := [.handleMsg (m1 v) buf 2 (fun _ => rnd 35), .handleMsg [0xff] buf 3 (fun _ => rnd 36)]

theorem prnd_WF : (Op.poll 3 prnd).WF Toy.crypto := ⟨fun _ => ⟨rfl, rfl⟩, by decide⟩

theorem m1_type (v : Version) : (m1 v).head? = some 0x81 := by cases v <;> decide +kernel

theorem leaves_other {C : Crypto} {s : Server} {p : Nat} {rx tx : Bytes} {now : Time} {r : HashChoice → Rnd} (h2 : rx.head? ≠ some 0x82)
    (h3 : rx.head? ≠ some 0x83) : LeavesHandshake C p s (.handleMsg rx tx now r) :=
  ⟨fun _ _ _ h => (nomatch h), fun _ _ h => (nomatch h), fun rx' h => (by cases h; exact fun q _ rej => ⟨fun h => h2 h.1, fun h => h3 h.1⟩),
    fun rx' h => (by cases h; exact fun h => h3 h.1)⟩

theorem leaves_open {C : Crypto} {s : Server} {p : Nat} {t : Time} {rx tx : Bytes} {now : Time} {r : HashChoice → Rnd}
    (h3 : rx.head? ≠ some 0x83) (ht : now ≤ t + secs 300 - eventGrace) : LeavesOpen C p t s (.handleMsg rx tx now r) :=
  ⟨fun u h => (by cases h; exact ht), fun rx' h => (by cases h; exact fun q _ rej h => h3 h.1), fun rx' h => (by cases h; exact fun h => h3 h.1)⟩

theorem between_leaves (v : Version) : Along Toy.crypto (LeavesHandshake Toy.crypto 0) (A1 v) (between v) := by
  refine ⟨fun _ => rnd_WF 33, trivial, leaves_other (by rw [m1_type]; decide) (by rw [m1_type]; decide), fun _ => rnd_WF 34, trivial,
    leaves_other (by decide) (by decide), prnd_WF, trivial, ?_, trivial, trivial, ?_, trivial⟩
  · refine ⟨fun _ _ _ h => (nomatch h), ?_, fun _ h => (nomatch h), fun _ h => (nomatch h)⟩
    intro t r h hs hhs
    cases h
    have h1 : ((((A1 v).step Toy.crypto (.handleMsg (m1 v) buf 1 (fun _ => rnd 33))).step Toy.crypto (.handleMsg [0xff, 1, 2, 3] buf 2 (fun _ => rnd 34))).handshake 0).map (·.createdAt) = some 0 := by
      cases v <;> decide +kernel
    rw [hhs] at h1
    simp only [Option.map_some, Option.some.injEq] at h1
    rw [h1]
    decide
  · exact ⟨fun _ _ _ h => (nomatch h), fun _ _ h => (nomatch h), fun _ h => (nomatch h), fun _ h => (nomatch h)⟩

theorem meanwhile_leaves (v : Version) : Along Toy.crypto (LeavesOpen Toy.crypto 0 1) (B1 v) (meanwhile v) :=
  ⟨fun _ => rnd_WF 35, trivial, leaves_open (by rw [m1_type]; decide) (by decide), fun _ => rnd_WF 36, trivial, leaves_open (by decide) (by decide), trivial⟩

/-- the InitConf the initiator sends after those events -/
def late3 (v : Version) := ((A1 v).run Toy.crypto (between v)).handleMsg Toy.crypto (m2 v) buf 5 (fun _ => rnd 30)

/-- the responder's reaction to it, after its own events -/
def late4 (v : Version) := ((B1 v).run Toy.crypto (meanwhile v)).handleMsg Toy.crypto (reply (late3 v)) buf 6 (fun _ => rnd 40)

end Ex

/-- C99: the hypotheses of `completes_despite_loss` are met by two fresh servers, with the InitHello and the RespHello of the run delivered late and twice;
… -/
example (v : Version) : FreshReachable Toy.crypto (Ex.A0 v) ∧ (Ex.A0 v).initiate Toy.crypto 0 0 (Ex.rnd 9) Ex.buf = (.ok (Ex.m1 v), Ex.A1 v) ∧
    Along Toy.crypto (LeavesHandshake Toy.crypto 0) (Ex.A1 v) (Ex.between v) ∧ Along Toy.crypto (LeavesOpen Toy.crypto 0 1) (Ex.B1 v) (Ex.meanwhile v) ∧
    ¬ SidTaken ((Ex.B1 v).run Toy.crypto (Ex.meanwhile v)) 0 (Ex.rnd 20).sid := by
  refine ⟨Ex.server_fresh _ _ _, ?_, Ex.between_leaves v, Ex.meanwhile_leaves v, ?_⟩
  · have h : (Ex.c1 v).1 = .ok (Ex.m1 v) := by cases v <;> decide +kernel
    have e : Ex.A1 v = (Ex.c1 v).2 := by unfold Ex.A1; rfl
    rw [← h, e]; unfold Ex.c1; rw [Prod.mk.eta]
  · rintro ⟨q, hq, hc⟩
    have hl : ((Ex.B1 v).run Toy.crypto (Ex.meanwhile v)).peers.length = 1 := by cases v <;> decide +kernel
    have hn : ((Ex.B1 v).run Toy.crypto (Ex.meanwhile v)).peers[q]? = none := by
      rw [List.getElem?_eq_none]; omega
    rcases hc with h | h
    · unfold session at h; rw [hn] at h; cases h
    · unfold handshake at h; rw [hn] at h; cases h

/-- … and the run with those histories reports the exchange on both sides. -/
example (v : Version) : (match (Ex.late3 v).1 with | .ok r => r.exchanged | _ => none) = some 0 ∧
    (match (Ex.late4 v).1 with | .ok r => r.exchanged | _ => none) = some 0 := by cases v <;> decide +kernel

end Verif
