import Verif.Thm.Recovery
/-
C105: a handshake a server starts leads to at most one session of that server, whatever RespHello messages arrive.
-/
namespace Verif
open HashDomain Server

/-! ### Specification vocabulary -/

/-- the initiator's session id in a RespHello message: bytes 8 to 11 (whitepaper, "Messages"; msgs.rs) -/
def respHelloSid (rx : Bytes) : Bytes := (rx.drop 8).take 4

/-- the call starts a handshake under session id `sid` -/
def Server.Op.Draws (o : Op) (sid : Bytes) : Prop := ∃ p t r x, o = .initiate p t r x ∧ r.sid = sid

section
variable {C : Crypto}

/-- no peer waits for a RespHello under `sid` -/
def NoneWaits (s : Server) (sid : Bytes) : Prop :=
  ∀ (p : Nat) (q : Peer) (h : IniHs), s.peers[p]? = some q → q.handshake = some h → h.core.sidi = sid → h.next ≠ .respHello

/-- every handshake was there before, under the same id; if it waits for a RespHello, it did before -/
def HsKept (s s' : Server) : Prop :=
  ∀ (p : Nat) (q' : Peer) (h' : IniHs), s'.peers[p]? = some q' → q'.handshake = some h' →
    ∃ q h, s.peers[p]? = some q ∧ q.handshake = some h ∧ h'.core.sidi = h.core.sidi ∧ (h'.next = .respHello → h.next = .respHello)

theorem HsKept.same {s s' : Server} (h : s'.peers = s.peers) : HsKept s s' :=
  fun _ q' h' hq hh => ⟨q', h', by rw [← h]; exact hq, hh, rfl, id⟩
theorem HsKept.trans {a b c : Server} (h : HsKept a b) (g : HsKept b c) : HsKept a c := by
  intro p q' h' hq hh
  obtain ⟨q1, h1, e1, e2, e3, e4⟩ := g p q' h' hq hh
  obtain ⟨q2, h2, f1, f2, f3, f4⟩ := h p q1 h1 e1 e2
  exact ⟨q2, h2, f1, f2, e3.trans f3, fun x => f4 (e4 x)⟩
theorem HsKept.upd {s s' : Server} {i : Nat} {f : Peer → Peer} (hu : Upd s s' i f)
    (hf : ∀ q h', (f q).handshake = some h' → ∃ h, q.handshake = some h ∧ h'.core.sidi = h.core.sidi ∧ (h'.next = .respHello → h.next = .respHello)) :
    HsKept s s' := by
  intro p q' h' hq hh
  have := hu p
  rw [hq] at this
  by_cases hp : p = i
  · rw [if_pos hp] at this
    cases hs : s.peers[p]? with
    | none => rw [hs] at this; cases this
    | some q =>
      rw [hs] at this
      simp only [Option.map_some, Option.some.injEq] at this
      subst this
      obtain ⟨h, e1, e2, e3⟩ := hf q h' hh
      exact ⟨q, h, rfl, e1, e2, e3⟩
  · rw [if_neg hp] at this; exact ⟨q', h', this.symm, hh, rfl, id⟩
theorem HsKept.updSame {s s' : Server} {i : Nat} {f : Peer → Peer} (hu : Upd s s' i f) (hf : ∀ q, (f q).handshake = q.handshake ∨ (f q).handshake = none) :
    HsKept s s' :=
  .upd hu fun q h' hh => by
    rcases hf q with e | e
    · exact ⟨h', by rw [← e]; exact hh, rfl, id⟩
    · rw [e] at hh; cases hh
theorem HsKept.updMap {s s' : Server} {i : Nat} {f : Peer → Peer} {g : IniHs → IniHs} (hu : Upd s s' i f) (hf : ∀ q, (f q).handshake = q.handshake.map g)
    (hg : ∀ h, (g h).core.sidi = h.core.sidi ∧ ((g h).next = .respHello → h.next = .respHello)) : HsKept s s' :=
  .upd hu fun q h' hh => by
    rw [hf] at hh
    cases hq : q.handshake with
    | none => rw [hq] at hh; cases hh
    | some h =>
      rw [hq] at hh
      simp only [Option.map_some, Option.some.injEq] at hh
      subst hh
      exact ⟨h, rfl, (hg h).1, (hg h).2⟩

theorem NoneWaits.kept {s s' : Server} {sid : Bytes} (h : NoneWaits s sid) (k : HsKept s s') : NoneWaits s' sid := by
  intro p q' h' hq hh hs hn
  obtain ⟨q, h0, e1, e2, e3, e4⟩ := k p q' h' hq hh
  exact h p q h0 e1 e2 (e3 ▸ hs) (e4 hn)

theorem AttemptState.hsKept {s s0 : Server} {ic : InitConf} {h : HashChoice} (hA : AttemptState C s ic h s0) : HsKept s s0 := by
  rcases hA with rfl | ⟨-, p, no, c, -, rfl, -⟩
  · exact .same rfl
  · exact .updSame (burnt_get s p no) (fun _ => .inl rfl)

/-- received messages start no handshake -/
theorem handleMsg_hsKept (s : Server) (rx tx : Bytes) (now : Time) (r : HashChoice → Rnd) : HsKept s (s.handleMsg C rx tx now r).2 := by
  rcases handleMsg_dispatch C s rx tx now r with ⟨x, hx, -⟩ | ⟨t, bs, out, hrx, hout, hd⟩
  · rw [hx]; exact .same rfl
  rcases hd with ⟨rfl, e, he, hh⟩ | ⟨rfl, e, he, hh⟩ | ⟨rfl, e, he, hh⟩ | ⟨rfl, e, he, hh⟩ | ⟨rfl, cr, he, hh⟩
  · rw [hh]
    rcases msgInitHello_cases C s e out now r with ⟨y, hx⟩ | ⟨h', q, c, peer, rh, R⟩
    · rw [hx]; exact .same rfl
    · rcases R.result with ⟨h1, -⟩ | ⟨h1, -⟩ | ⟨h1, -⟩ <;> (rw [h1]; exact .same (issued_peers _ _ _))
  · rw [hh]
    rcases msgRespHello_cases C s e tx now (r .shake) with ⟨y, hx⟩ | ⟨out', p, c, ic, peer, hs, hc, R⟩
    · rw [hx]; exact .same rfl
    · have hacc : ∀ ses, HsKept s (s.accepted p ses) := fun ses => .updMap (accepted_get s p ses) (fun _ => rfl) (fun _ => ⟨rfl, by simp⟩)
      rcases R.result with ⟨h1, -⟩ | ⟨h1, -⟩ | ⟨h1, -⟩
      · rw [h1]; exact .updSame (sessTake_get s p) (fun _ => .inl rfl)
      · rw [h1]; exact hacc _
      · rw [h1]; exact (hacc _).trans (.updMap (modHs_get _ p _) (fun _ => rfl) (fun _ => ⟨rfl, id⟩))
  · rw [hh]
    rcases msgInitConf_cases C s e tx now with ⟨hx, -⟩ | ⟨out', hc, ⟨q, hq, ⟨x, hx, -⟩ | ⟨peer, k, hp, -, hck, hx⟩⟩ | ⟨hn, hf⟩⟩
    · rw [hx]; exact .same rfl
    · rw [hx]; exact .same rfl
    · rw [hx]; exact .same rfl
    · rw [hf]
      rcases msgInitConfFresh_cases C s e out' now with ⟨h, s0, x, hA, hx, -⟩ | ⟨h, s0, q, no, c, peer, hA, R⟩
      · rw [hx]; exact AttemptState.hsKept hA
      · refine (AttemptState.hsKept hA).trans ?_
        have hconf : ∀ ses, HsKept s0 (s0.confirmed q no ses) := fun ses => .updSame (confirmed_get s0 q no ses) (fun _ => .inr rfl)
        rcases R.result with ⟨⟨x, -, h1⟩, -⟩ | ⟨h1, -⟩ | ⟨h1, -⟩ | ⟨h1, -⟩ | ⟨s2, h1, hk, -⟩
        · rw [h1]; exact .updSame (burnt_get s0 q no) (fun _ => .inl rfl)
        · rw [h1]; exact hconf _
        · rw [h1]; exact hconf _
        · rw [h1]; exact hconf _
        · rw [h1]; exact (hconf _).trans (.updSame (knownInsert_upd hk) (fun _ => .inl rfl))
  · rw [hh]
    rcases handleRespConf_cases C s e with ⟨x, hx⟩ | ⟨p, peer, ses, hl, hp, hses, hn, hck, hct, hres⟩
    · rw [hx]; exact .same rfl
    · have h1 : HsKept s (s.modPeer p (fun q => { q with session := some { ses with txnt := leNat (EmptyData.decode e.payload).ctr } })) :=
        .updSame (modPeer_get s p _) (fun _ => .inl rfl)
      rcases hres with ⟨h2, -⟩ | ⟨h2, -⟩
      · rw [h2]; exact h1
      · rw [h2]; exact h1.trans (.updSame (hsTake_get _ p) (fun _ => .inr rfl))
  · rw [hh]
    rcases handleCookieReply_cases C s cr now with ⟨x, hx⟩ | ⟨p, peer, hs, mac, hl, hp, hhs, hm, hres⟩
    · rw [hx]; exact .same rfl
    · rcases hres with ⟨-, h1⟩ | ⟨v, -, h1⟩
      · rw [h1]; exact .updMap (modHs_get _ p _) (fun _ => rfl) (fun _ => ⟨rfl, id⟩)
      · rw [h1]; exact .updMap (modHs_get _ p _) (fun _ => rfl) (fun _ => ⟨rfl, id⟩)

theorem underLoad_hsKept (s : Server) (rx tx host : Bytes) (now : Time) (r : HashChoice → Rnd) : HsKept s (s.handleMsgUnderLoad C rx tx host now r).2 := by
  rcases underLoad_cases C s rx tx host now r with ⟨x, -, hx, -⟩ | ⟨-, hx⟩ | ⟨h81, i, ids, s1, -, hs1, ⟨-, hx⟩ |
    ⟨e, -, ⟨-, hx⟩ | ⟨-, ⟨-, hx⟩ | ⟨-, hx⟩⟩⟩⟩
  · rw [hx]; exact .same rfl
  · rw [hx]; exact handleMsg_hsKept s rx tx now r
  · rw [hx]; exact .same (by rw [hs1])
  · rw [hx]
    exact HsKept.trans (.same (by rw [hs1])) (handleMsg_hsKept s1 rx tx now r)
  · rw [hx]; exact .same (by rw [hs1])
  · rw [hx]; exact .same (by rw [hs1])

/-- only starting a handshake under `sid` makes a peer wait under `sid` -/
theorem noneWaits_step {s : Server} {sid : Bytes} (h : NoneWaits s sid) (o : Op) (hd : ¬ o.Draws sid) : NoneWaits (s.step C o) sid := by
  cases o with
  | addPeer psk pk v osk =>
    simp only [Server.step, addPeer]
    split
    · exact h
    · intro p q h' hq hh hs hn
      dsimp only at hq
      rw [List.getElem?_append] at hq
      split at hq
      · exact h p q h' hq hh hs hn
      · rw [List.getElem?_singleton] at hq
        split at hq
        · cases hq; cases hh
        · cases hq
  | initiate p t r x =>
    simp only [Server.step]
    rcases initiate_cases C s p t r x with ⟨y, hy⟩ | ⟨peer, ih, hs, e, hp, hini, hc, hfree, hm⟩
    · rw [hy]; exact h
    · rw [hm]
      refine NoneWaits.kept ?_ (.updMap (modHs_get _ p _) (fun _ => rfl) (fun _ => ⟨rfl, id⟩))
      intro p' q h' hq hh hsid
      rw [hsPut_get] at hq
      split at hq
      · rename_i hpp
        rw [hpp, hp] at hq
        simp only [Option.map_some, Option.some.injEq] at hq
        subst hq
        cases hh
        rw [(initiation_facts hini).2.1] at hsid
        exact absurd ⟨p, t, r, x, rfl, hsid⟩ hd
      · exact h p' q h' hq hh hsid
  | handleMsg rx tx now r => exact h.kept (handleMsg_hsKept s rx tx now r)
  | handleMsgUnderLoad rx tx host now r => exact h.kept (underLoad_hsKept s rx tx host now r)
  | poll t r =>
    simp only [Server.step]
    cases hpo : s.poll t r with
    | none => exact h
    | some x =>
      obtain ⟨c, s'⟩ := x
      obtain ⟨s1, hm, rfl⟩ := poll_moves s c s' hpo
      have h1 : NoneWaits s1 sid := by
        refine hm.inv (P := fun x => NoneWaits x sid) (fun a b m ha => ha.kept ?_) h
        cases m with
        | biscuit i t h1 h2 => exact .same rfl
        | cookie i t h1 h2 => exact .same rfl
        | hsTake p hs h1 h2 => exact .updSame (hsTake_get a p) (fun _ => .inr rfl)
        | sessTake p ses h1 h2 => exact .updSame (sessTake_get a p) (fun _ => .inl rfl)
        | initReq p h1 => exact .updSame (modPeer_get a p _) (fun _ => .inl rfl)
        | retry p hs h1 h2 => exact .updMap (modHs_get a p _) (fun _ => rfl) (fun _ => ⟨rfl, id⟩)
        | known p k s' h1 h2 h3 => exact .updSame (knownRemove_upd h3) (fun _ => .inl rfl)
      exact h1
  | retransmit p' tx => simp only [Server.step, retransmit_state]; exact h

theorem noneWaits_run {sid : Bytes} : ∀ (ops : List Op) {s : Server}, NoneWaits s sid → (∀ o ∈ ops, ¬ o.Draws sid) → NoneWaits (s.run C ops) sid
  | [], _, h, _ => h
  | o :: ops, _, h, hd => noneWaits_run ops (noneWaits_step h o (hd o (by simp))) (fun o' ho' => hd o' (by simp [ho']))

theorem respHelloSid_eq {rx : Bytes} {e : Env} (h : Env.decode (RespHello.size C) rx = some e) :
    (RespHello.decode C e.payload).sidi = respHelloSid rx := by
  obtain ⟨hl, rfl⟩ := Env.decode_eq_some h
  have h2 : (12 : Nat) ≤ rx.length ∧ 8 ≤ RespHello.size C := by simp only [Env.size, RespHello.size] at *; omega
  simp only [RespHello.decode, Env.view, respHelloSid, List.drop_take, List.drop_drop, List.take_take]
  congr 1

/-- who accepts a RespHello had a peer waiting under its session id -/
theorem accepts_waiting {s s' : Server} {rx tx : Bytes} {now : Time} {r : HashChoice → Rnd} {p : Nat} {m : Option Bytes} (h82 : rx.head? = some 0x82)
    (hok : s.handleMsg C rx tx now r = (.ok ⟨some p, m⟩, s')) :
    s.index (.sid (respHelloSid rx)) = some p ∧ ¬ NoneWaits s (respHelloSid rx) ∧
      ∀ (q' : Peer) (h' : IniHs), s'.peers[p]? = some q' → q'.handshake = some h' → h'.next ≠ .respHello := by
  rcases handleMsg_exchanged hok with ⟨e, out, c, ic, peer, hs, bs, hty, he, hc, hck, R⟩ | ⟨e, out, h, s0, no, c, peer, bs, hty, -⟩
  · obtain ⟨hs', eshk, sshk, pt, c1, hl, hhs, hn, -⟩ := rhiVerify_ok R.verify
    rw [respHelloSid_eq he] at hl
    have hpe := R.hpeer
    unfold handshake at hhs
    rw [hpe] at hhs
    have hhs' : peer.handshake = some hs' := by simpa using hhs
    refine ⟨lookup_index hl, fun hw => hw p peer hs' hpe hhs' ?_ hn, ?_⟩
    · unfold lookupHandshake at hl
      split at hl
      · cases hl
      · split at hl
        · rename_i h2
          simp only [Option.some.injEq] at hl
          subst hl
          unfold handshake at h2
          rw [hpe] at h2
          simpa [hhs'] using h2
        · cases hl
    · intro q' h' hq' hh'
      rcases R.result with ⟨h1, -⟩ | ⟨h1, -⟩ | ⟨h1, -⟩
      · cases h1
      · cases h1
      · cases h1
        rw [modHs_get, if_pos rfl, accepted_get, if_pos rfl, hpe] at hq'
        simp only [Option.map_some, Option.some.injEq, R.hhs] at hq'
        subst hq'
        cases hh'
        simp [regRetransmit]
  · rw [hty] at h82; cases h82

/-- RespHello messages are only accepted outside of load -/
theorem exchange_direct {s : Server} {o : Op} {rx : Bytes} (hrx : o.received = some rx) (h82 : rx.head? = some 0x82) {p : Nat} {m : Option Bytes}
    (hok : o.result C s = .ok ⟨some p, m⟩) : ∃ tx now r, o = .handleMsg rx tx now r ∧ s.handleMsg C rx tx now r = (.ok ⟨some p, m⟩, s.step C o) := by
  cases o with
  | addPeer psk pk v osk => cases hrx
  | initiate p now r tx => cases hrx
  | poll now r => cases hrx
  | retransmit p tx => cases hrx
  | handleMsg rx tx now r =>
    cases hrx
    exact ⟨tx, now, r, rfl, Prod.ext hok rfl⟩
  | handleMsgUnderLoad rx tx host now r =>
    cases hrx
    have hok' : (s.handleMsgUnderLoad C rx tx host now r).1 = .ok ⟨some p, m⟩ := hok
    cases rx with
    | nil => cases h82
    | cons b bs =>
      simp only [List.head?_cons, Option.some.injEq] at h82
      subst h82
      cases hok'

/-- **C105.** A handshake leads to at most one session of the server that started it: once a RespHello was accepted, no further RespHello
for the same session id - in particular not the same one again - is accepted, whatever happens in between, unless a new handshake under that id is
started. -/
theorem respHello_starts_one_session (L : C.Lawful) {s : Server} (hf : FreshReachable C s) (o : Op) (rx : Bytes) (hrx : o.received = some rx)
    (h82 : rx.head? = some 0x82) (p : Nat) (m : Option Bytes) (hok : o.result C s = .ok ⟨some p, m⟩)
    (ops : List Op) (hops : ∀ o ∈ ops, ¬ o.Draws (respHelloSid rx))
    (o' : Op) (rx' : Bytes) (hrx' : o'.received = some rx') (h82' : rx'.head? = some 0x82) (hsid : respHelloSid rx' = respHelloSid rx)
    (p' : Nat) (m' : Option Bytes) : o'.result C ((s.step C o).run C ops) ≠ .ok ⟨some p', m'⟩ := by
  intro hok'
  obtain ⟨tx, now, r, rfl, h1⟩ := exchange_direct hrx h82 hok
  obtain ⟨tx', now', r', rfl, h2⟩ := exchange_direct hrx' h82' hok'
  obtain ⟨hix, -, hnext⟩ := accepts_waiting h82 h1
  obtain ⟨-, hw, -⟩ := accepts_waiting h82' h2
  rw [hsid] at hw
  refine hw (noneWaits_run ops ?_ hops)
  intro i q h hq hh hs hn
  have hk := handleMsg_hsKept (C := C) s rx tx now r i q h hq hh
  obtain ⟨q0, h0, e1, e2, e3, -⟩ := hk
  have := fresh_index L hf e1 e2
  rw [← e3, hs, hix] at this
  cases this
  exact hnext q h hq hh hn

namespace Ex
/-- not vacuous: in the example run, A accepts B's RespHello, then polls, starts another handshake under another id, and gets the message again -/
theorem respHello_once (v : Version) :
    FreshReachable Toy.crypto (A1 v) ∧ (Op.handleMsg (m2 v) buf 2 (fun _ => rnd 30)).result Toy.crypto (A1 v) = .ok ⟨some 0, some (m3 v)⟩ ∧
      (m2 v).head? = some 0x82 ∧ (∀ o ∈ [Op.poll 3 prnd, .initiate 0 4 (rnd 50) buf], ¬ o.Draws (respHelloSid (m2 v))) ∧
      (Op.handleMsg (m2 v) buf 5 (fun _ => rnd 60)).result Toy.crypto ((A2 v).run Toy.crypto [.poll 3 prnd, .initiate 0 4 (rnd 50) buf]) = .error .noHandshake := by
  have key : (c3 v).1 = .ok ⟨some 0, some (m3 v)⟩ ∧ (m2 v).head? = some 0x82 ∧ (rnd 50).sid ≠ respHelloSid (m2 v) ∧
      (Op.handleMsg (m2 v) buf 5 (fun _ => rnd 60)).result Toy.crypto ((A2 v).run Toy.crypto [.poll 3 prnd, .initiate 0 4 (rnd 50) buf]) = .error .noHandshake := by
    cases v <;> decide +kernel
  obtain ⟨k1, k2, k3, k4⟩ := key
  refine ⟨FreshReachable.step (A0 v) (.initiate 0 0 (rnd 9) buf) (server_fresh _ _ _) (rnd_WF 9) ?_, k1, k2, ?_, k4⟩
  · show ((A0 v).handshake 0).map (·.core.sidi) ≠ some (rnd 9).sid
    cases v <;> decide +kernel
  · intro o ho
    simp only [List.mem_cons, List.not_mem_nil, or_false] at ho
    rcases ho with rfl | rfl
    · rintro ⟨_, _, _, _, h, -⟩; cases h
    · rintro ⟨_, _, _, _, h, h2⟩; cases h; exact k3 h2
end Ex
end
end Verif
